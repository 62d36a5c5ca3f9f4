{
 "claims": [
  {
   "property": "C01",
   "status": "proved",
   "theorems": [
    "Ez.C01_backpressure_raises_iff",
    "Ez.C01_backpressure_accounting"
   ],
   "note": "Refinement of the three pieces of state to the history specification, plus exactly when a call raises."
  },
  {
   "property": "C02",
   "status": "proved",
   "theorems": [
    "Ez.C02_free_isolated",
    "Ez.C02_free_absent_noop",
    "Ez.C02_free_idempotent"
   ],
   "note": "Frame, no-op and idempotence in every reachable state."
  },
  {
   "property": "C03",
   "status": "proved",
   "theorems": [
    "Ez.C03_cache_lookup",
    "Ez.C03_cache_release_raises",
    "Ez.C03_cache_zero_buffers"
   ],
   "note": "Lookup and release refine the history specification for every cache size >= 1."
  },
  {
   "property": "C04",
   "status": "proved",
   "theorems": [
    "Ez.C04_cache_keeps_newest",
    "Ez.C04_cache_keys",
    "Ez.C04_cache_releases_once",
    "Ez.C04_cache_release_iff_not_retained"
   ],
   "note": "Retention window, keys, and exactly-once release of memory views."
  },
  {
   "property": "C05",
   "status": "proved",
   "theorems": [
    "Ez.C05_always_acyclic"
   ],
   "note": "Invariant over all histories of connect/disconnect/owner removal."
  },
  {
   "property": "C06",
   "status": "proved",
   "theorems": [
    "Ez.C06_cycle_refusal_exact_and_atomic"
   ],
   "note": "Refusal exact in every reachable state; a refused connect leaves the whole state unchanged."
  },
  {
   "property": "C07",
   "status": "proved",
   "theorems": [
    "Ez.C07_edge_present_iff_held",
    "Ez.C07_return_values",
    "Ez.C07_owner_independence"
   ],
   "note": "Ownership refines the history specification; return values; independence of owners."
  },
  {
   "property": "C08",
   "status": "proved",
   "theorems": [
    "Ez.C08_upstream_downstream_exact"
   ],
   "note": "Exact reachability, no repetition, duality; bfs is a total function (well-founded recursion)."
  },
  {
   "property": "C09",
   "status": "proved",
   "theorems": [
    "Ez.C09_nodes_are_endpoints"
   ],
   "note": "Node list = endpoints of existing connections, no repetition."
  },
  {
   "property": "C10",
   "status": "partial",
   "theorems": [
    "Ez.Srv.C10_routing_partial",
    "Ez.Srv.C10_exact_partial",
    "Ez.Srv.C10_settles",
    "Ez.Srv.C10_negation_departed",
    "Ez.Srv.C10_negation_overtaken"
   ],
   "note": "For all histories whose updates are written in the order prepared: at rest the last update of every subscriber is exact among the connected publishers, and exact if no publisher left. The code sends nothing when a publisher leaves (C10_negation_departed) and a loop running outside the lock can be overtaken (C10_negation_overtaken). C10_settles covers all histories."
  },
  {
   "property": "C100",
   "status": "partial",
   "theorems": [
    "Ez.Wire.C100_calls",
    "Ez.Wire.C100_session",
    "Ez.Wire.C100_frames",
    "Ez.Wire.C100_cut",
    "Ez.Wire.C100_introduce",
    "Ez.Wire.C100_updates",
    "Ez.Wire.C100_lost",
    "Ez.Wire.C100_empty_payload",
    "Ez.Wire.C100_negative"
   ],
   "note": "Proved, each for every order in which the two sides work: calls with a connection of their own (C100_calls), sessions (C100_session), updates of subscribers (C100_updates), all streams of frames (C100_frames), broken event streams (C100_cut), channel and publisher (C100_introduce). Violated: connect, disconnect and sync return normally if the server closes the connection without answering (C100_lost); a request with an empty payload arrives without a payload (C100_empty_payload); create_shm with a negative number raises and leaves a connection open on which the server waits (C100_negative)."
  },
  {
   "property": "C101",
   "status": "partial",
   "theorems": [
    "Ez.Closing.C101_ends_partial",
    "Ez.Closing.C101_awaits_partial",
    "Ez.Closing.C101_lost",
    "Ez.Closing.C101_ignored",
    "Ez.Closing.C101_goes_on",
    "Ez.Closing.C101_hangs"
   ],
   "note": "C101_ends_partial: unless the subscriber is removing a channel when it is closed, or one of its channels waits for the end of an old segment then or later; C101_awaits_partial: then it also waits for the end of all tasks of the channels it alone uses. Violated in both cases: Channel.wait_closed and SHMContext.wait_closed suppress the CancelledError meant for the task that calls them. A subscriber closed while it removes a channel goes on as before (C101_lost, C101_ignored, C101_goes_on); one whose channel just moves to a larger segment waits for that channel for as long as the publisher lives (C101_hangs)."
  },
  {
   "property": "C102",
   "status": "partial",
   "theorems": [
    "Ez.PubClose.C102_ends_partial",
    "Ez.PubClose.C102_raises",
    "Ez.PubClose.C102_segment",
    "Ez.PubClose.C102_stray",
    "Ez.PubClose.C102_late",
    "Ez.PubClose.C102_twice"
   ],
   "note": "C102_ends_partial: for a publisher that is closed once, while no channel is connecting and no broadcast is growing its segment then or later; C102_raises: after a connection that broke off in an acknowledgement wait_closed raises. Violated otherwise: the new segment of a broadcast stays attached (C102_segment, C102_stray), a channel that is connecting keeps its connection and wait_closed hangs (C102_late), and a second close keeps the publisher's own channel registered (C102_twice)."
  },
  {
   "property": "C103",
   "status": "partial",
   "theorems": [
    "Ez.Executor.C103_in_order",
    "Ez.Executor.C103_waits",
    "Ez.Executor.C103_runs_partial",
    "Ez.Executor.C103_monitor",
    "Ez.Executor.C103_unnoticed",
    "Ez.Executor.C103_negation",
    "Ez.Executor.C103_active"
   ],
   "note": "C103_in_order, C103_waits, C103_active and C103_monitor without restriction; C103_runs_partial: as long as fewer jobs go on for ever than there may be threads. Violated otherwise (C103_unnoticed, C103_negation): with as many functions decorated with thread as threads, monitor_termination never starts and the tasks are never cancelled."
  },
  {
   "property": "C104",
   "status": "partial",
   "theorems": [
    "Ez.LoopClose.C104_summary",
    "Ez.LoopClose.C104_clean_partial",
    "Ez.LoopClose.C104_unclean_partial",
    "Ez.LoopClose.C104_ends_partial",
    "Ez.LoopClose.C104_final",
    "Ez.LoopClose.C104_busy",
    "Ez.LoopClose.C104_negation",
    "Ez.LoopClose.C104_warning",
    "Ez.LoopClose.C104_strict"
   ],
   "note": "C104_summary, C104_warning, C104_strict and C104_final without restriction; C104_unclean_partial says what the exit status reflects; C104_clean_partial: tasks that start after the others were cancelled may be left (violation C104_negation); C104_ends_partial: as soon as no task keeps the thread busy (C104_busy: until then an interrupt does not help)."
  },
  {
   "property": "C105",
   "status": "partial",
   "theorems": [
    "Ez.SyncRecv.C105_order_partial",
    "Ez.SyncRecv.C105_once",
    "Ez.SyncRecv.C105_quiet_partial",
    "Ez.SyncRecv.C105_answer_partial",
    "Ez.SyncRecv.C105_ends",
    "Ez.SyncRecv.C105_negation"
   ],
   "note": "C105_once without restriction; C105_order_partial: order and no duplicates always, nothing missing if no call raised, otherwise at most one message per call that raised; C105_quiet_partial: none once the loop has done what it was asked to; C105_answer_partial: a later call can return as soon as there is a message. Violated (C105_negation): a message taken while a call gives up is returned by no call."
  },
  {
   "property": "C106",
   "status": "partial",
   "theorems": [
    "Ez.Configure.C106_settings",
    "Ez.Configure.C106_configure",
    "Ez.Configure.C106_network_partial",
    "Ez.Configure.C106_negation"
   ],
   "note": "C106_settings and C106_configure for all trees in which configure applies settings to components inside the collection; C106_network_partial: network and process_components see the final settings of a collection if no collection above applies settings to it. Violated otherwise (C106_negation): both are called before any configure."
  },
  {
   "property": "C107",
   "status": "partial",
   "theorems": [
    "Ez.AA.ChunkerUnit.C107_published_partial",
    "Ez.AA.ChunkerUnit.C107_whole",
    "Ez.AA.ChunkerUnit.C107_ended",
    "Ez.AA.ChunkerUnit.C107_negation"
   ],
   "note": "C107_published_partial for runs in which the loop does not look for a chunk beyond the last one before new settings come; C107_whole and C107_ended for all. Violated otherwise (C107_negation): after the last chunk the loop has ended, and settings that come later are accepted but nothing is published."
  },
  {
   "property": "C108",
   "status": "proved",
   "theorems": [
    "Ez.Meta.C108_entries",
    "Ez.Meta.C108_sorted",
    "Ez.Meta.C108_tree"
   ],
   "note": "C108_entries, C108_sorted and C108_tree for all trees of components with different addresses. Topics and relays of a unit (which UnitMeta refuses unless they are inherited from a base class that is not a unit) have no entry."
  },
  {
   "property": "C109",
   "status": "partial",
   "theorems": [
    "Ez.AA.Coordinates.C109_values_partial",
    "Ez.AA.Coordinates.C109_out_of_range",
    "Ez.AA.Coordinates.C109_xarray_partial",
    "Ez.AA.Coordinates.C109_refused",
    "Ez.AA.Coordinates.C109_negation"
   ],
   "note": "C109_values_partial and C109_xarray_partial if no dimension has a coordinate axis; C109_out_of_range for numbers without a dimension. Violated otherwise, for every such array (C109_refused, C109_negation): ax raises ValueError."
  },
  {
   "property": "C11",
   "status": "proved",
   "theorems": [
    "Ez.Srv.C11_connections_are_those_made",
    "Ez.Srv.C11_session_end_exact",
    "Ez.Srv.C11_session_lists_its_connections"
   ],
   "note": "Graph server transition system; connections of every owner characterised by the history, session end exact, session edge lists exact."
  },
  {
   "property": "C110",
   "status": "partial",
   "theorems": [
    "Ez.CancelPub.C110_as_without_timeouts_partial",
    "Ez.CancelPub.C110_returned_then_published_partial",
    "Ez.CancelPub.C110_waiting_call_withdrawn",
    "Ez.CancelPub.C110_negation_same_id",
    "Ez.CancelPub.C110_negation_published_twice",
    "Ez.CancelPub.C110_negation_overwritten",
    "Ez.CancelPub.C110_timeout_takes_effect"
   ],
   "note": "Holds as long as no call is cancelled while it sends: the system stays in states it can reach without timeouts (C110_as_without_timeouts_partial), messages of returned calls are published, published messages are those of calls, in order (C110_returned_then_published_partial), and a waiting call is withdrawn without trace (C110_waiting_call_withdrawn). Violated otherwise: C110_negation_same_id, C110_negation_published_twice, C110_negation_overwritten."
  },
  {
   "property": "C111",
   "status": "partial",
   "theorems": [
    "Ez.Views.C111_content",
    "Ez.Views.C111_growth_partial",
    "Ez.Views.C111_negation_cut_off",
    "Ez.Views.C111_negation",
    "Ez.Views.C111_goes_on_partial"
   ],
   "note": "The content of messages in use is right in every execution (C111_content). The rest holds if the segment is replaced only while no array made from a message of the old one is in use (C111_growth_partial). Otherwise the channel ends and nobody in the process ever gets a message again (C111_negation_cut_off, C111_negation)."
  },
  {
   "property": "C112",
   "status": "partial",
   "theorems": [
    "Ez.Unsub.C112_follows_partial",
    "Ez.Unsub.C112_negation_deaf",
    "Ez.Unsub.C112_negation_close",
    "Ez.Unsub.C112_negation",
    "Ez.Unsub.C112_goes_on_partial"
   ],
   "note": "Holds unless an update takes away a publisher whose channel has no other client in the process while an array made from one of its messages is in use (C112_follows_partial). Then the subscriber's task ends, no later update is confirmed and the connection stays open (C112_negation_deaf, C112_negation); the same goes for closing (C112_negation_close)."
  },
  {
   "property": "C113",
   "status": "partial",
   "theorems": [
    "Ez.Life.C113_once",
    "Ez.Life.C113_refused",
    "Ez.Life.C113_ends",
    "Ez.Life.C113_shut_down_partial",
    "Ez.Life.C113_works",
    "Ez.Life.C113_negation_stuck",
    "Ez.Life.C113_negation_enter_fails",
    "Ez.Life.C113_negation_cleanup_fails",
    "Ez.Life.C113_negation"
   ],
   "note": "Calls end at most once, refused calls raise at once, and entering and shutdown end, in every execution (C113_once, C113_refused, C113_ends). After shutdown the thread and all calls have ended if closing the graph context does not raise, cancelled tasks end in time, no call is made meanwhile and shutdown is not strict (C113_shut_down_partial). Violated otherwise: C113_negation_stuck, C113_negation_enter_fails, C113_negation_cleanup_fails, C113_negation."
  },
  {
   "property": "C114",
   "status": "partial",
   "theorems": [
    "Ez.Forward.C114_copied",
    "Ez.Forward.C114_plain_partial",
    "Ez.Forward.C114_elsewhere_partial",
    "Ez.Forward.C114_window_partial",
    "Ez.Forward.C114_negation_overwritten",
    "Ez.Forward.C114_goes_on",
    "Ez.Forward.C114_negation"
   ],
   "note": "Proved for units that copy, such as relays by default (C114_copied). For other units it holds for messages without arrays (C114_plain_partial), for receivers in other processes if the unit publishes at once (C114_elsewhere_partial), and in the same process as long as the publisher has not gone round its buffers (C114_window_partial). Violated otherwise: C114_negation_overwritten, C114_negation."
  },
  {
   "property": "C115",
   "status": "partial",
   "theorems": [
    "Ez.Tracker.C115_own_partial",
    "Ez.Tracker.C115_all_partial",
    "Ez.Tracker.C115_negation_failed",
    "Ez.Tracker.C115_negation",
    "Ez.Tracker.C115_goes_on"
   ],
   "note": "If at most one thread at a time attaches, only resources of the process itself are removed at its end (C115_own_partial); if moreover attaching does not raise and nothing is created meanwhile, all of them are, and creating never raises (C115_all_partial). Violated otherwise: C115_negation_failed, C115_negation."
  },
  {
   "property": "C116",
   "status": "partial",
   "theorems": [
    "Ez.SyncZero.C116_order",
    "Ez.SyncZero.C116_freed",
    "Ez.SyncZero.C116_inside",
    "Ez.SyncZero.C116_left",
    "Ez.SyncZero.C116_given_back",
    "Ez.SyncZero.C116_none_lost_partial",
    "Ez.SyncZero.C116_negation",
    "Ez.SyncZero.C116_goes_on"
   ],
   "note": "Held inside (C116_inside), given back once and not before the block has ended or was given up (C116_freed), before __exit__ returns (C116_left) and in the end in any case (C116_given_back); order (C116_order). Nothing is lost if no __enter__ is given up (C116_none_lost_partial); violated otherwise: C116_negation."
  },
  {
   "property": "C117",
   "status": "partial",
   "theorems": [
    "Ez.LoadTest.C117_network",
    "Ez.LoadTest.C117_ends",
    "Ez.LoadTest.C117_warnings",
    "Ez.LoadTest.C117_dropped_partial",
    "Ez.LoadTest.C117_results",
    "Ez.LoadTest.C117_some",
    "Ez.LoadTest.C117_negation"
   ],
   "note": "Network (C117_network), end of the test (C117_ends), warnings per source (C117_warnings), results (C117_results; nothing is claimed of the median rate). Messages dropped are counted correctly for one source (C117_dropped_partial). Violated: with several sources losses go unreported, and there are no results unless two messages were sent at different times (C117_some, C117_negation)."
  },
  {
   "property": "C118",
   "status": "partial",
   "theorems": [
    "Ez.Deco.C118_sample",
    "Ez.Deco.C118_task_partial",
    "Ez.Deco.C118_stops",
    "Ez.Deco.C118_publisher",
    "Ez.Deco.C118_off",
    "Ez.Deco.C118_method_partial",
    "Ez.Deco.C118_file",
    "Ez.Deco.C118_negation",
    "Ez.Deco.C118_negation_windows"
   ],
   "note": "Tasks that take messages and methods, when every message is readable (C118_task_partial, C118_method_partial); what happens otherwise (C118_stops, C118_sample); another level (C118_off); the file (C118_file). Violated: messages that declare an axis for a dimension they do not have make the decorated task raise, decorated publishers do not run (C118_publisher, C118_negation), and the sample time of windows is not that of the sample (C118_negation_windows)."
  },
  {
   "property": "C119",
   "status": "partial",
   "theorems": [
    "Ez.Cmd.C119_reported_partial",
    "Ez.Cmd.C119_runs_on",
    "Ez.Cmd.C119_round",
    "Ez.Cmd.C119_reports",
    "Ez.Cmd.C119_declined",
    "Ez.Cmd.C119_child_fails",
    "Ez.Cmd.C119_lost_stays",
    "Ez.Cmd.C119_hangs",
    "Ez.Cmd.C119_stranger",
    "Ez.Cmd.C119_port_zero",
    "Ez.Cmd.C119_shutdown_says",
    "Ez.Cmd.C119_shutdown",
    "Ez.Cmd.C119_stopped_stays",
    "Ez.Cmd.C119_dashboard_fails",
    "Ez.Cmd.C119_handed_over",
    "Ez.Cmd.C119_dashboard_address",
    "Ez.Cmd.C119_negation_hangs",
    "Ez.Cmd.C119_negation_stranger",
    "Ez.Cmd.C119_negation_dashboard",
    "Ez.Cmd.C119_negation_false"
   ],
   "note": "Reports come from its own server when no other program runs one there (C119_reported_partial), which runs on (C119_runs_on); the loop (C119_round, C119_reports, C119_declined); shutting down (C119_shutdown_says, C119_shutdown, C119_stopped_stays); options (C119_handed_over, C119_dashboard_address). Violated: `start` loops for ever when its child failed or with port 0 (C119_hangs, C119_port_zero, C119_negation_hangs), reports another program's server as its own (C119_stranger, C119_negation_stranger), a failing dashboard ends the graph server (C119_dashboard_fails, C119_negation_dashboard), `dashboard=False` asks for one (C119_negation_false)."
  },
  {
   "property": "C12",
   "status": "proved",
   "theorems": [
    "Ez.C12_wire_roundtrip",
    "Ez.C12_encoder_range"
   ],
   "note": "Round trip of any value sequence in front of any bytes; every truncation is an incomplete read; encoder range exact."
  },
  {
   "property": "C120",
   "status": "partial",
   "theorems": [
    "Ez.Naming.C120_refused",
    "Ez.Naming.C120_names",
    "Ez.Naming.C120_listed",
    "Ez.Naming.C120_table",
    "Ez.Naming.C120_attribute_partial",
    "Ez.Naming.C120_instance",
    "Ez.Naming.C120_apart",
    "Ez.Naming.C120_run",
    "Ez.Naming.C120_run_once",
    "Ez.Naming.C120_negation_bases",
    "Ez.Naming.C120_negation_removed"
   ],
   "note": "Names (C120_names, C120_listed), refusal (C120_refused), instances (C120_instance, C120_apart), running (C120_run, C120_run_once), what a class has (C120_table), which is Python's attribute with single inheritance and fields of one kind (C120_attribute_partial). Violated with several bases (C120_negation_bases) and when a field of a base is overridden by something else (C120_negation_removed)."
  },
  {
   "property": "C121",
   "status": "partial",
   "theorems": [
    "Ez.AB.C121_median",
    "Ez.AB.C121_robust",
    "Ez.AB.C121_means",
    "Ez.AB.C121_means_robust",
    "Ez.AB.C121_means_median_partial",
    "Ez.AB.C121_negation_means",
    "Ez.AB.C121_order",
    "Ez.AB.C121_pairs",
    "Ez.AB.C121_summary",
    "Ez.AB.C121_summary_raises",
    "Ez.AB.C121_verdict",
    "Ez.AB.C121_negation_equal",
    "Ez.AB.C121_swapped_partial",
    "Ez.AB.C121_negation_swapped",
    "Ez.AB.C121_mean_favours_a",
    "Ez.AB.C121_comparison",
    "Ez.AB.C121_environment",
    "Ez.AB.C121_own_first"
   ],
   "note": "Order and pairs (C121_order, C121_pairs, C121_comparison), summary (C121_summary, C121_summary_raises, C121_median, C121_robust, C121_verdict), median of means (C121_means, C121_means_robust), environment (C121_environment, C121_own_first). Exchanging the versions inverts the median with an odd number of pairs only (C121_swapped_partial; C121_negation_swapped with 2 and with the default of 6), the mean favours A (C121_mean_favours_a); equal times are called an improvement (C121_negation_equal); with an even number of buckets the median of means is the upper one of the two in the middle (C121_means_median_partial, C121_negation_means)."
  },
  {
   "property": "C122",
   "status": "partial",
   "theorems": [
    "Ez.Steady.C122_around",
    "Ez.Steady.C122_not_allowed",
    "Ez.Steady.C122_restored_partial",
    "Ez.Steady.C122_negation_nice",
    "Ez.Steady.C122_negation_lowered",
    "Ez.Steady.C122_negation_env",
    "Ez.Steady.C122_negation_windows",
    "Ez.Steady.C122_processors",
    "Ez.Steady.C122_negation_first"
   ],
   "note": "What the measured code finds and what is left afterwards, for every body (C122_around), processors (C122_processors), processors that cannot be set (C122_not_allowed). Everything but the environment variables is restored except on Windows and for unprivileged processes with a negative nice (C122_restored_partial). Violations: variables stay set (C122_negation_env), the priority class of Windows stays high (C122_negation_windows), an unprivileged process with a negative nice loses its priority for good (C122_negation_nice), the priority of a process below -10 is lowered to be elevated (C122_negation_lowered), with three processors the first is used (C122_negation_first)."
  },
  {
   "property": "C123",
   "status": "partial",
   "theorems": [
    "Ez.Bench.C123_reported",
    "Ez.Bench.C123_negation_mixed",
    "Ez.Bench.C123_tests",
    "Ez.Bench.C123_checks",
    "Ez.Bench.C123_negation_config",
    "Ez.Bench.C123_log",
    "Ez.Bench.C123_quit",
    "Ez.Bench.C123_report",
    "Ez.Bench.C123_negation_empty",
    "Ez.Bench.C123_negation_wallclock",
    "Ez.Bench.C123_classified",
    "Ez.Bench.C123_overview",
    "Ez.Bench.C123_compared",
    "Ez.Bench.C123_exchanged_partial",
    "Ez.Bench.C123_negation_exchanged",
    "Ez.Bench.C123_negation_zero"
   ],
   "note": "Tests (C123_tests, C123_checks), log (C123_log, C123_quit), report (C123_reported, C123_report), comparison (C123_classified, C123_overview, C123_compared). Exchanging the reports may turn an improvement into neutral (C123_exchanged_partial, C123_negation_exchanged). Violations: results with other parameters of the same combination are dropped (C123_negation_mixed), an unknown configuration raises KeyError (C123_negation_config), without repetitions the report raises StopIteration (C123_negation_empty), compared to 0 everything is neutral (C123_negation_zero), the wall clock time is ambiguous (C123_negation_wallclock)."
  },
  {
   "property": "C124",
   "status": "proved",
   "theorems": [
    "Ez.Srv.C124_served",
    "Ez.Srv.C124_answers"
   ],
   "note": "C124_served: a step from outside is possible exactly when the history says so; C124_answers: the reply of every step from the history. The server's own steps (timeouts, resuming, notifying, writing) are covered by C10 and C30."
  },
  {
   "property": "C125",
   "status": "proved",
   "theorems": [
    "Ez.HotPath.C125_cases",
    "Ez.HotPath.C125_names",
    "Ez.HotPath.C125_transport",
    "Ez.HotPath.C125_sample",
    "Ez.HotPath.C125_summary",
    "Ez.HotPath.C125_rate",
    "Ez.HotPath.C125_suite",
    "Ez.HotPath.C125_left",
    "Ez.HotPath.C125_works"
   ],
   "note": "C125_cases, C125_names: the cases and their names; C125_transport; C125_sample: what is timed; C125_summary, C125_rate; C125_suite, C125_left, C125_works: the whole run. Numbers are rationals, the square root is given."
  },
  {
   "property": "C126",
   "status": "proved",
   "theorems": [
    "Ez.Html.C126_escape",
    "Ez.Html.C126_options",
    "Ez.Html.C126_changes",
    "Ez.Html.C126_row",
    "Ez.Html.C126_rows",
    "Ez.Html.C126_color",
    "Ez.Html.C126_environment"
   ],
   "note": "C126_escape; C126_options, C126_changes, C126_row: what a reader finds, by a separate definition of reading; C126_rows, C126_color, C126_environment. Formatted numbers are given as texts without special characters."
  },
  {
   "property": "C127",
   "status": "partial",
   "theorems": [
    "Ez.SettingsMeta.C127_source",
    "Ez.SettingsMeta.C127_pydantic",
    "Ez.SettingsMeta.C127_bounds",
    "Ez.SettingsMeta.C127_choices",
    "Ez.SettingsMeta.C127_param",
    "Ez.SettingsMeta.C127_hint_partial",
    "Ez.SettingsMeta.C127_number_without_widget",
    "Ez.SettingsMeta.C127_factory_ignored"
   ],
   "note": "C127_source, C127_pydantic, C127_bounds, C127_choices and C127_param without restriction; C127_hint_partial: for bool, int, float and str of pydantic 1 and 2, and Boolean, Integer and String of param. Violated: C127_number_without_widget (a param.Number gets no widget), C127_factory_ignored (default_factory and metadata of a pydantic 2 field make no difference)."
  },
  {
   "property": "C128",
   "status": "partial",
   "theorems": [
    "Ez.Marks.C128_method",
    "Ez.Marks.C128_others_partial",
    "Ez.Marks.C128_refused",
    "Ez.Marks.C128_again_fails",
    "Ez.Marks.C128_wrapped_fails"
   ],
   "note": "C128_method and C128_refused without restriction; C128_others_partial: for methods defined by a def statement with decorators. Violated for methods that are decorated again (C128_again_fails), even if the wrapper of timeit is another function (C128_wrapped_fails)."
  },
  {
   "property": "C129",
   "status": "partial",
   "theorems": [
    "Ez.GenUnit.C129_accepted_partial",
    "Ez.GenUnit.C129_made",
    "Ez.GenUnit.C129_initialized_partial",
    "Ez.GenUnit.C129_gen_lost",
    "Ez.GenUnit.C129_warned_partial",
    "Ez.GenUnit.C129_silent",
    "Ez.GenUnit.C129_keyword_refused"
   ],
   "note": "C129_made without restriction; C129_accepted_partial: exactly which functions are accepted (violated: C129_keyword_refused, a keyword-only parameter without default after a parameter with one); C129_initialized_partial without a parameter called gen (violated: C129_gen_lost); C129_warned_partial for types other than AxisArray (violated: C129_silent)."
  },
  {
   "property": "C13",
   "status": "proved",
   "theorems": [
    "Ez.C13_address_roundtrip"
   ],
   "note": "Round trip for all hosts without a colon and all integers; hosts with a colon always refused. int() modelled for ASCII."
  },
  {
   "property": "C130",
   "status": "proved",
   "theorems": [
    "Ez.ProcessCalls.C130_decode",
    "Ez.ProcessCalls.C130_answers",
    "Ez.ProcessCalls.C130_trace",
    "Ez.ProcessCalls.C130_unreachable",
    "Ez.ProcessCalls.C130_both",
    "Ez.ProcessCalls.C130_request"
   ],
   "note": "C130_decode, C130_answers, C130_trace, C130_unreachable, C130_both, C130_request. One request at a time (overlapping requests: C94 and the control properties); pickle.loads of pickle.dumps is assumed to give the object back."
  },
  {
   "property": "C14",
   "status": "proved",
   "theorems": [
    "Ez.C14_marshal_roundtrip",
    "Ez.C14_marshal_succeeds",
    "Ez.C14_marshal_refusals"
   ],
   "note": "Relative to a codec with load(dump o) = o (pickle is abstracted)."
  },
  {
   "property": "C15",
   "status": "proved",
   "theorems": [
    "Ez.C15_marshal_stays_in_buffer",
    "Ez.C15_slot_write_frame"
   ],
   "note": "Exact success conditions and frame, at the level of the block and of the whole segment."
  },
  {
   "property": "C16",
   "status": "proved",
   "theorems": [
    "Ez.C16_shm_slots"
   ],
   "note": "For every created segment and every sequence of slot writes."
  },
  {
   "property": "C17",
   "status": "partial",
   "theorems": [
    "Ez.C17_window_rejected",
    "Ez.C17_negation",
    "Ez.C17_message_placed_partial"
   ],
   "note": "False of the code: messages in a 16 byte window raise ValueError (C17_window_rejected, C17_negation). C17_message_placed_partial covers all other messages."
  },
  {
   "property": "C18",
   "status": "proved",
   "theorems": [
    "Ez.C18_growth_preserves_slots",
    "Ez.C18_slots_hold_latest"
   ],
   "note": "Growth preserves every slot; after any history each slot reads the latest message belonging in it."
  },
  {
   "property": "C19",
   "status": "proved",
   "theorems": [
    "Ez.Sys.C19_never_raises",
    "Ez.Sys.C19_received_prefix",
    "Ez.Sys.C19_all_received",
    "Ez.Sys.C19_drained_received"
   ],
   "note": "Transition system over all schedules; one broadcast call per publisher at a time, no segment growth (see DESIGN)."
  },
  {
   "property": "C20",
   "status": "proved",
   "theorems": [
    "Ez.Sys.C20_unfinished_intact",
    "Ez.Sys.C20_wire_intact",
    "Ez.Sys.C20_buffer_leased"
   ],
   "note": "Same system as C19: unfinished, on the wire and leased messages read back intact."
  },
  {
   "property": "C21",
   "status": "proved",
   "theorems": [
    "Ez.Sys.C21_run_ahead",
    "Ez.Sys.C21_at_most_n"
   ],
   "note": "Same system as C19."
  },
  {
   "property": "C22",
   "status": "proved",
   "theorems": [
    "Ez.Sys.C22_progress",
    "Ez.Sys.C22_draining_ends",
    "Ez.Sys.C22_drained",
    "Ez.Sys.C22_progress_fixed_links"
   ],
   "note": "Fixed links, and more generally subscribers that only leave without unfinished messages (otherwise C25's leak)."
  },
  {
   "property": "C23",
   "status": "proved",
   "theorems": [
    "Ez.Sys.C23_queue",
    "Ez.Sys.C23_drop_only_when_full",
    "Ez.Sys.C23_leaky_subscriber",
    "Ez.Sys.C23_leases"
   ],
   "note": "The queue alone for all operation sequences, and inside the system of C19."
  },
  {
   "property": "C24",
   "status": "partial",
   "theorems": [
    "Ez.Sys.C24_available_partial",
    "Ez.Sys.C24_negation"
   ],
   "note": "False as stated: a held message blocks the slot it occupies (C24_negation). C24_available_partial excludes exactly that."
  },
  {
   "property": "C25",
   "status": "partial",
   "theorems": [
    "Ez.Sys.C25_unlink_partial",
    "Ez.Sys.C25_orderly_partial",
    "Ez.Sys.C25_closed_frees_all",
    "Ez.Sys.C25_negation"
   ],
   "note": "False of the code: leases of a departing subscriber are freed in the channel but the publisher is not told (C25_negation). Partial theorems: channel side, orderly departure, last client."
  },
  {
   "property": "C26",
   "status": "proved",
   "theorems": [
    "Ez.Transport.C26_exactly_one_way",
    "Ez.Transport.C26_mode",
    "Ez.Transport.C26_force_tcp",
    "Ez.Transport.C26_defaults",
    "Ez.Transport.C26_fast_paths_attached",
    "Ez.Transport.C26_second_local_channel_skipped"
   ],
   "note": "Decision functions, environment defaults, and the hand-overs of one broadcast for any list of channels (one channel per process)."
  },
  {
   "property": "C27",
   "status": "proved",
   "theorems": [
    "Ez.Sys.C27_no_lasting_lease",
    "Ez.Sys.C27_no_clients_no_lease",
    "Ez.Sys.C27_progress"
   ],
   "note": "C27_no_lasting_lease holds in every reachable state for channels that are clear of leases when considered (e.g. freshly connected); with no clients at all and orderly departures the publisher ends without backpressure. Leases leaked by an early departure (C25) are not repaired."
  },
  {
   "property": "C28",
   "status": "partial",
   "theorems": [
    "Ez.Sys.C28_paused_partial",
    "Ez.Sys.C28_resume_releases",
    "Ez.Sys.C28_sync_partial",
    "Ez.Sys.C28_sync_returns",
    "Ez.Sys.C28_sync_returns_drained",
    "Ez.Sys.C28_negation_pause",
    "Ez.Sys.C28_negation_sync"
   ],
   "note": "False as stated: a broadcast call already past the gate proceeds while paused and sync can return too early (C28_negation_pause, C28_negation_sync). Partial theorems for no call past the gate."
  },
  {
   "property": "C29",
   "status": "proved",
   "theorems": [
    "Ez.Srv.C29_at_most_one_owner",
    "Ez.Srv.C29_claims_exact",
    "Ez.Srv.C29_disconnect_frees_exactly"
   ],
   "note": "Ownership after register/update/disconnect characterised exactly in every reachable state; at most one owner."
  },
  {
   "property": "C30",
   "status": "partial",
   "theorems": [
    "Ez.Srv.C30_answered_at_most_once",
    "Ez.Srv.C30_answers_justified_partial",
    "Ez.Srv.C30_no_forgery_no_invalid",
    "Ez.Srv.C30_never_left_hanging",
    "Ez.Srv.C30_late_or_unknown_ignored",
    "Ez.Srv.C30_foreign_response_completes"
   ],
   "note": "False of the code for forged responses: a response from another process completes the request with INVALID_RESPONSE (C30_foreign_response_completes). Everything else proved: at most once, justified by the history, never left hanging, late/unknown responses change nothing."
  },
  {
   "property": "C31",
   "status": "proved",
   "theorems": [
    "Ez.C31_retained_newest_numbered",
    "Ez.C31_numbers_consecutive",
    "Ez.C31_events_after_exact",
    "Ez.Srv.C31_server_logs"
   ],
   "note": "Retained events, numbering and replies after n, for every operation history and limit; and for both logs of the server in every run."
  },
  {
   "property": "C32",
   "status": "partial",
   "theorems": [
    "Ez.Srv.C32_events_cover_snapshot_partial",
    "Ez.Srv.C32_exact_if_undisturbed_partial",
    "Ez.Srv.C32_removal_has_no_event",
    "Ez.Srv.C32_registration_over_report"
   ],
   "note": "False of the code: removals have no event (C32_removal_has_no_event), and registering a reported component announces the initial value (C32_registration_over_report). Partial: exact for components free of these two, and what the events say of every component in the snapshot."
  },
  {
   "property": "C33",
   "status": "proved",
   "theorems": [
    "Ez.C33_bounded_newest_in_order",
    "Ez.C33_overflow_discards_oldest",
    "Ez.C33_nothing_lost_without_overflow",
    "Ez.Srv.C33_server_streams"
   ],
   "note": "Queue bound, newest suffix, exact overflow behaviour, nothing lost without overflow; bound >= 1; and for every subscriber of the server in every run."
  },
  {
   "property": "C34",
   "status": "proved",
   "theorems": [
    "Ez.Backend.C34_partition",
    "Ez.Backend.C34_force_single_process"
   ],
   "note": "Trees without repeated components; which units share a process is characterised by the nearest process component above them."
  },
  {
   "property": "C35",
   "status": "proved",
   "theorems": [
    "Ez.Backend.C35_relays_transparent",
    "Ez.Backend.C35_through",
    "Ez.Backend.C35_second_copy"
   ],
   "note": "Relay topics must be fresh (distinct and not used by the declared network). Who hears whom, not how often: C35_second_copy."
  },
  {
   "property": "C36",
   "status": "proved",
   "theorems": [
    "Ez.GraphUtil.C36_prune_keeps_connectivity",
    "Ez.GraphUtil.C36_negation_cycle"
   ],
   "note": "Connectivity and the reported topics for every graph dictionary. That no reported topic is left as a target needs an acyclic graph (C36_negation_cycle); the server's graph is acyclic by C05."
  },
  {
   "property": "C37",
   "status": "proved",
   "theorems": [
    "Ez.Patch.C37_exactly_one_field",
    "Ez.Patch.C37_accepted_iff",
    "Ez.Patch.C37_unknown_field",
    "Ez.Patch.C37_request",
    "Ez.Patch.C37_answered",
    "Ez.Patch.C37_class_attributes"
   ],
   "note": "Methods and class attributes of objects that are not dataclasses count as existing fields and get overwritten (C37_class_attributes). Paths are given split; __post_init__ is not modelled."
  },
  {
   "property": "C38",
   "status": "partial",
   "theorems": [
    "Ez.Mgr.C38_clients_are_served",
    "Ez.Mgr.C38_one_channel_partial",
    "Ez.Mgr.C38_answers_partial",
    "Ez.Mgr.C38_negation_two_channels"
   ],
   "note": "For all histories every client is served by the channel it was given. One channel per publisher and no leak only if no registration starts while the channel for the same publisher is being created; C38_negation_two_channels shows the failure otherwise. In the same histories each call answers as it should (C38_answers_partial)."
  },
  {
   "property": "C39",
   "status": "proved",
   "theorems": [
    "Ez.C39_port_scan"
   ],
   "note": "Smallest usable port; error exactly when none."
  },
  {
   "property": "C40",
   "status": "proved",
   "theorems": [
    "Ez.Gate.C40_passes_exactly",
    "Ez.Gate.C40_never_stuck",
    "Ez.Gate.C40_counts_since_change",
    "Ez.Gate.C40_changes_exactly"
   ],
   "note": "What passes between commands, what is counted, when the gate changes; all interleavings of commands with message handling."
  },
  {
   "property": "C41",
   "status": "proved",
   "theorems": [
    "Ez.MQueue.C41_lossless",
    "Ez.MQueue.C41_bounded",
    "Ez.MQueue.C41_leaky_newest",
    "Ez.MQueue.C41_leaky_drops_oldest",
    "Ez.MQueue.C41_waiting_gets_in",
    "Ez.MQueue.C41_publishes"
   ],
   "note": "Lossless when not leaky, bound, leaky drops exactly the oldest, a waiting put gets in. Rate limiting not modelled."
  },
  {
   "property": "C42",
   "status": "partial",
   "theorems": [
    "Ez.Logger.C42_immediate_exact",
    "Ez.Logger.C42_buffered_exact_partial",
    "Ez.Logger.C42_order_no_duplicates",
    "Ez.Logger.C42_buffered_stop_loses",
    "Ez.Logger.C42_buffered_start_writes_earlier"
   ],
   "note": "False of the code with a write period (C42_buffered_stop_loses, C42_buffered_start_writes_earlier). Exact for immediate writing; C42_buffered_exact_partial when files are opened and closed with an empty buffer; order and no duplicates always."
  },
  {
   "property": "C43",
   "status": "proved",
   "theorems": [
    "Ez.AA.C43_chunks",
    "Ez.AA.C43_concatenation",
    "Ez.AA.C43_times"
   ],
   "note": "Times in exact arithmetic; an empty dimension raises IndexError. The chunk count is computed in floating point by the code (exact below 2^53)."
  },
  {
   "property": "C44",
   "status": "partial",
   "theorems": [
    "Ez.AA.C44_slice_positions",
    "Ez.AA.C44_data_aligned",
    "Ez.AA.C44_coordinates_partial",
    "Ez.AA.C44_negation_step",
    "Ez.AA.C44_negation_default_axis",
    "Ez.AA.C44_refusals",
    "Ez.AA.C44_succeeds",
    "Ez.AA.C44_succeeds_exactly"
   ],
   "note": "Data aligned for every indexer; coordinates for declared linear axes and step 1. Fails for other steps and for dimensions without declared axis."
  },
  {
   "property": "C45",
   "status": "partial",
   "theorems": [
    "Ez.Codec.C45_roundtrip_partial",
    "Ez.Codec.C45_log_partial",
    "Ez.Codec.C45_tuple_becomes_list",
    "Ez.Codec.C45_negation_init_false",
    "Ez.Codec.C45_reserved_key"
   ],
   "note": "Round trip for every message tree whose dataclasses take all their fields as keyword arguments, for any JSON/base64/pickle library satisfying Lib.Ok. Tuples come back as lists; a dataclass with an init=False field raises TypeError on decoding (C45_negation_init_false)."
  },
  {
   "property": "C46",
   "status": "proved",
   "theorems": [
    "Ez.Rate.C46_sleep_in_range",
    "Ez.Rate.C46_no_drift",
    "Ez.Rate.C46_restarts"
   ],
   "note": "Exact arithmetic instead of floats."
  },
  {
   "property": "C47",
   "status": "partial",
   "theorems": [
    "Ez.Overlap.C47_negation_same_id",
    "Ez.Overlap.C47_negation_assertion",
    "Ez.Overlap.C47_negation_local",
    "Ez.Overlap.C47_serialised_partial",
    "Ez.Overlap.C47_serialised_never_raises_partial",
    "Ez.Overlap.C47_serialised_received_partial",
    "Ez.Overlap.C47_in_process_atomic_partial"
   ],
   "note": "The code does not have it (three negations). Proved for any number of tasks whose calls find a free buffer and do not interleave."
  },
  {
   "property": "C48",
   "status": "partial",
   "theorems": [
    "Ez.Growth.C48_in_step_partial",
    "Ez.Growth.C48_goes_on_partial",
    "Ez.Growth.C48_one_buffer_partial",
    "Ez.Growth.C48_negation"
   ],
   "note": "The code does not have it with two or more buffers (C48_negation). Proved: a publisher that grows only when its channels have processed the previous growth, and any publisher with one buffer."
  },
  {
   "property": "C49",
   "status": "partial",
   "theorems": [
    "Ez.ShmServer.C49_leases_exact",
    "Ez.ShmServer.C49_granted",
    "Ez.ShmServer.C49_isolated",
    "Ez.ShmServer.C49_lifetime_partial",
    "Ez.ShmServer.C49_negation"
   ],
   "note": "False of the code when somebody attaches to a segment already removed (C49_negation: removed twice). C49_lifetime_partial covers histories without late attaches; bookkeeping and isolation are unconditional."
  },
  {
   "property": "C50",
   "status": "proved",
   "theorems": [
    "Ez.Total.C50_fires_exactly",
    "Ez.Total.C50_first_event"
   ],
   "note": "Every event history; the raise is a flag per event."
  },
  {
   "property": "C51",
   "status": "proved",
   "theorems": [
    "Ez.Srv.C51_snapshot_characterised",
    "Ez.Srv.C51_one_session_per_component",
    "Ez.Srv.C51_registration_refused_iff",
    "Ez.Srv.C51_report_accepted_iff",
    "Ez.Srv.C51_events_name_the_session"
   ],
   "note": "Snapshot characterised by the history for every run of the server model; which registrations and reports are accepted; what the events name."
  },
  {
   "property": "C52",
   "status": "proved",
   "theorems": [
    "Ez.Srv.C52_topology_events_exact"
   ],
   "note": "One step of the server model in every reachable state."
  },
  {
   "property": "C53",
   "status": "partial",
   "theorems": [
    "Ez.AA.C53_sel_partial",
    "Ez.AA.C53_succeeds",
    "Ez.AA.C53_negation_before_start"
   ],
   "note": "Labels at or after the start of a linear axis, no step, exact arithmetic. Fails for labels before the start."
  },
  {
   "property": "C54",
   "status": "proved",
   "theorems": [
    "Ez.AA.C54_transpose"
   ],
   "note": "Dimension names; integer dimension arguments are not modelled."
  },
  {
   "property": "C55",
   "status": "proved",
   "theorems": [
    "Ez.AA.C55_iter_over_axis"
   ],
   "note": "Dimension names; integer axis arguments are not modelled."
  },
  {
   "property": "C56",
   "status": "proved",
   "theorems": [
    "Ez.AA.C56_concatenate",
    "Ez.AA.C56_concatenate_succeeds",
    "Ez.AA.C56_stack_succeeds",
    "Ez.AA.C56_stack",
    "Ez.AA.C56_coordinates"
   ],
   "note": ""
  },
  {
   "property": "C57",
   "status": "proved",
   "theorems": [
    "Ez.AA.C57_strided",
    "Ez.AA.C57_generic",
    "Ez.AA.C57_negation_empty_window",
    "Ez.AA.C57_negation_too_long"
   ],
   "note": "Both implementations; windows of length 0 and n+1 are recorded as negations."
  },
  {
   "property": "C58",
   "status": "partial",
   "theorems": [
    "Ez.Track.C58_reports_exact",
    "Ez.Track.C58_replies",
    "Ez.Track.C58_goes_on",
    "Ez.Track.C58_tracked_partial",
    "Ez.Track.C58_patches_apply_partial",
    "Ez.Track.TrackExample.C58_negation_stale",
    "Ez.Track.TrackExample.C58_negation_lost"
   ],
   "note": "The code does not have it (C58_negation_stale, C58_negation_lost). Proved: tracked settings are right if no other message arrives between a patch being sent and recorded; patches apply in order if requests and other messages do not overlap. Reports are exact, and each request gets one reply, telling only settings that were sent, in all runs (C58_replies)."
  },
  {
   "property": "C59",
   "status": "proved",
   "theorems": [
    "Ez.Runner.C59_every_message",
    "Ez.Runner.C59_held_until_all_called",
    "Ez.Runner.C59_ends",
    "Ez.Runner.C59_independent",
    "Ez.Runner.C59_strict_deaf",
    "Ez.Runner.RunnerExample.C59_negation_strict"
   ],
   "note": "In strict mode an exception ends the handler (C59_negation_strict, C59_strict_deaf)."
  },
  {
   "property": "C60",
   "status": "partial",
   "theorems": [
    "Ez.Ack.C60_exact",
    "Ez.Ack.C60_matched_partial",
    "Ez.Ack.C60_no_idle_answer",
    "Ez.Ack.C60_negation",
    "Ez.Ack.C60_goes_on"
   ],
   "note": "After a timeout all later answers are shifted (C60_exact gives the exact shift for all runs, C60_negation a witness). Holds without timeouts."
  },
  {
   "property": "C61",
   "status": "partial",
   "theorems": [
    "Ez.Session.C61_matched",
    "Ez.Session.C61_raises",
    "Ez.Session.C61_in_order",
    "Ez.Session.C61_all_end_partial",
    "Ez.Session.C61_stuck",
    "Ez.Session.C61_negation",
    "Ez.Session.C61_goes_on"
   ],
   "note": "Matching, order, and which commands raise (C61_raises) for all runs; all commands end except possibly the one under way when the loop fails, which hangs (C61_negation, C61_stuck)."
  },
  {
   "property": "C62",
   "status": "partial",
   "theorems": [
    "Ez.Depart.C62_undisturbed_partial",
    "Ez.Depart.C62_goes_on_partial",
    "Ez.Depart.C62_never_raises_partial",
    "Ez.Depart.C62_received_prefix_partial",
    "Ez.Depart.C62_next_message_lost",
    "Ez.Depart.Example.C62_negation_recv",
    "Ez.Depart.Example.C62_negation_held",
    "Ez.Depart.Example.C62_negation_other",
    "Ez.Depart.Example.C62_negation_broadcast"
   ],
   "note": "The code does not have it (C62_negation_recv, _held, _other, _broadcast; C62_next_message_lost for all states). Proved for all runs in which channels notice a departure only when their subscribers are done with the messages they were notified of."
  },
  {
   "property": "C63",
   "status": "partial",
   "theorems": [
    "Ez.Follow.C63_follows_partial",
    "Ez.Follow.C63_cut_off",
    "Ez.Follow.Example.C63_negation",
    "Ez.Follow.Example.C63_negation_create",
    "Ez.Follow.Example.C63_negation_leak"
   ],
   "note": "Holds while registering and unregistering succeed. One unreachable publisher cuts the subscriber off from all others for good (C63_cut_off for all states, C63_negation, C63_negation_create, C63_negation_leak)."
  },
  {
   "property": "C64",
   "status": "partial",
   "theorems": [
    "Ez.Joining.C64_returned_is_complete",
    "Ez.Joining.C64_raises_only_if_changed",
    "Ez.Joining.C64_undisturbed_partial",
    "Ez.Joining.C64_raises_if_changed",
    "Ez.Joining.C64_ids",
    "Ez.Joining.C64_leak_blocks",
    "Ez.Joining.C64_no_leak_partial",
    "Ez.Joining.C64_goes_on",
    "Ez.Joining.Example.C64_negation_join",
    "Ez.Joining.Example.C64_negation_leak"
   ],
   "note": "The code does not have it: any change of the number of channels during a call makes it raise and reuse its id (C64_raises_if_changed, all states; C64_negation_join), and a lease taken after a loss was noticed blocks the publisher for good (C64_leak_blocks, all continuations; C64_negation_leak). Proved for all runs: a call that returns is complete, raises only if something changed; no leak if no lease is taken for a lost channel."
  },
  {
   "property": "C65",
   "status": "proved",
   "theorems": [
    "Ez.Prof.C65_published_total",
    "Ez.Prof.C65_only_registered",
    "Ez.Prof.C65_window_since_snapshot",
    "Ez.Prof.C65_window_since_registration",
    "Ez.Prof.C65_window_first",
    "Ez.Prof.C65_inflight_reported_last",
    "Ez.Prof.C65_received_total",
    "Ez.Prof.C65_received_window"
   ],
   "note": ""
  },
  {
   "property": "C66",
   "status": "partial",
   "theorems": [
    "Ez.Sys.C66_exact_across_processes_partial",
    "Ez.Sys.C66_never_low_between_broadcasts",
    "Ez.Sys.C66_range",
    "Ez.Sys.C66_exact_when_stored",
    "Ez.Sys.C66_stays_high"
   ],
   "note": "The code does not have it for subscribers in the publisher's process: consuming a message does not update the number (C66_stays_high). Proved for all runs: exact if no channel lives in the publisher's process; within range; never too low outside a broadcast; exact after every broadcast, acknowledgement and departure."
  },
  {
   "property": "C67",
   "status": "proved",
   "theorems": [
    "Ez.Prof.C67_ordered_by_time",
    "Ez.Prof.C67_silent_when_off",
    "Ez.Prof.C67_expired",
    "Ez.Prof.C67_in_order_once",
    "Ez.Prof.C67_all_collected",
    "Ez.Prof.C67_newest_kept",
    "Ez.Prof.C67_batch_size",
    "Ez.Prof.C67_sampling",
    "Ez.Prof.C67_in_order_once_sub",
    "Ez.Prof.C67_all_collected_sub",
    "Ez.Prof.C67_newest_kept_sub",
    "Ez.Prof.C67_sub_sampling"
   ],
   "note": "What is uncollected when tracing expires or when the endpoint unregisters is lost: shown by examples in Props/TraceOrder."
  },
  {
   "property": "C68",
   "status": "proved",
   "theorems": [
    "Ez.TStream.C68_exact",
    "Ez.TStream.C68_in_order_once",
    "Ez.TStream.C68_complete",
    "Ez.TStream.C68_newest",
    "Ez.TStream.C68_catches_up",
    "Ez.TStream.C68_silent_after_leaving",
    "Ez.TStream.C68_batch",
    "Ez.TStream.C68_identity"
   ],
   "note": "Samples that a follower had not collected when their process left are lost; shown by an example."
  },
  {
   "property": "C69",
   "status": "partial",
   "theorems": [
    "Ez.Spin.C69_exact",
    "Ez.Spin.C69_once_in_order_partial",
    "Ez.Spin.C69_released",
    "Ez.Spin.C69_return_value",
    "Ez.Spin.C69_one_each",
    "Ez.Spin.C69_ready_served_partial",
    "Ez.Spin.C69_can_return",
    "Ez.Spin.C69_closing",
    "Ez.Spin.C69_stops",
    "Ez.Spin.Example.C69_shutdown_in_callback_fails"
   ],
   "note": "spin_once called by other code than spin, with a callback that calls shutdown(), raises and loses the other messages it had taken (C69_shutdown_in_callback_fails); proved for contexts that are shut down while spin runs or between calls, and the accounts, releases, return value and closing for every run."
  },
  {
   "property": "C70",
   "status": "partial",
   "theorems": [
    "Ez.Procs.C70_setup_first",
    "Ez.Procs.C70_started",
    "Ez.Procs.C70_returns",
    "Ez.Procs.C70_stop_together",
    "Ez.Procs.C70_quiet_partial",
    "Ez.Procs.C70_ends_partial",
    "Ez.Procs.C70_failed_setup_hangs",
    "Ez.Procs.C70_single_setup_failure",
    "Ez.Procs.Example.C70_setup_fails",
    "Ez.Procs.Example.C70_main_raises_fails",
    "Ez.Procs.Example.C70_interrupt_fails"
   ],
   "note": "The code does not have it: a failing set-up in a system of several processes leaves the others at the stop barrier for ever (C70_failed_setup_hangs, all continuations); a main function that raises lets units be shut down while coroutines run (C70_main_raises_fails); an interrupt of one process only is not passed on (C70_interrupt_fails). Proved for all runs: setup before running, stopping together; without those events also quiet shut-down and that the system ends."
  },
  {
   "property": "C71",
   "status": "partial",
   "theorems": [
    "Ez.Replay.C71_exact",
    "Ez.Replay.C71_all_in_order",
    "Ez.Replay.C71_pause",
    "Ez.Replay.C71_stop_partial",
    "Ez.Replay.C71_stop_all_partial",
    "Ez.Replay.C71_cut_asked",
    "Ez.Replay.C71_finished",
    "Ez.Replay.C71_fifo",
    "Ez.Replay.C71_goes_on",
    "Ez.Replay.C71_never_early",
    "Ez.Replay.C71_on_time",
    "Ez.Replay.C71_clock",
    "Ez.Replay.C71_spacing",
    "Ez.Replay.C71_roundtrip",
    "Ez.Replay.Example.C71_stop_ignored",
    "Ez.Replay.Example.C71_no_restart"
   ],
   "note": "A stop asked for while the first status of a file is published is forgotten (Example.C71_stop_ignored), and a stop with False does not go back to the beginning of the file as documented (Example.C71_no_restart); C71_stop_partial and C71_stop_all_partial exclude the first case and claim only the end of the file."
  },
  {
   "property": "C72",
   "status": "partial",
   "theorems": [
    "Ez.Compact.C72_image",
    "Ez.Compact.C72_level_zero",
    "Ez.Compact.C72_refused",
    "Ez.Compact.C72_topmost_partial",
    "Ez.Compact.C72_leaves_partial",
    "Ez.Compact.C72_topmost_fails"
   ],
   "note": "Image of the graph, refusal and level 0 for all graphs and levels. The topmost components are shown for levels up to 2, and above 2 if every component of a level above 2 has parts of the level just below only; C72_topmost_fails gives two graphs of level 3 and 4 where they are not."
  },
  {
   "property": "C73",
   "status": "partial",
   "theorems": [
    "Ez.Draw.C73_picture",
    "Ez.Draw.C73_raises",
    "Ez.Draw.C73_complete",
    "Ez.Draw.C73_compact_partial",
    "Ez.Draw.C73_compact_fails",
    "Ez.Draw.C73_lost",
    "Ez.Draw.C73_type_error",
    "Ez.Draw.C73_same_identifier"
   ],
   "note": "What is drawn and when it raises: all graphs. All keys are drawn if none is inside another (C73_complete), which the code does not require (C73_lost, C73_type_error) and compact graphs do not ensure above level 2 (C73_compact_partial, C73_compact_fails). Identifiers of subgraphs can coincide (C73_same_identifier)."
  },
  {
   "property": "C74",
   "status": "partial",
   "theorems": [
    "Ez.Classes.C74_attributes_partial",
    "Ez.Classes.C74_main_of_last",
    "Ez.Classes.C74_main_partial",
    "Ez.Classes.C74_made_partial",
    "Ez.Classes.C74_diamond_fails",
    "Ez.Classes.C74_unmarked_fails",
    "Ez.Classes.C74_mixin_fails",
    "Ez.Classes.C74_main_fails",
    "Ez.Classes.C74_refused"
   ],
   "note": "Proved for names which no two bases of a class share and which are marked alike wherever they are overridden, and for main functions of which only the last base of a class has one. The code does not follow Python's resolution otherwise: C74_diamond_fails, C74_unmarked_fails, C74_mixin_fails, C74_main_fails, C74_refused."
  },
  {
   "property": "C75",
   "status": "partial",
   "theorems": [
    "Ez.AA.C75_reads_partial",
    "Ez.AA.C75_scalar",
    "Ez.AA.C75_writes_partial",
    "Ez.AA.C75_determined",
    "Ez.AA.C75_untouched_partial",
    "Ez.AA.C75_shape_partial",
    "Ez.AA.C75_shape_fails",
    "Ez.AA.C75_reads_fails",
    "Ez.AA.C75_writes_fails"
   ],
   "note": "All arrays. Not for negative dimension numbers of one-dimensional arrays (C75_reads_fails) and in shape2d (C75_shape_fails), nor if the block raises and numpy copied (C75_writes_fails). Whether numpy shares memory is a parameter; arrays of one dimension are assumed to."
  },
  {
   "property": "C76",
   "status": "partial",
   "theorems": [
    "Ez.AA.C76_succeeds",
    "Ez.AA.C76_elements",
    "Ez.AA.C76_axes_partial",
    "Ez.AA.C76_no_map",
    "Ez.AA.C76_units",
    "Ez.AA.C76_keys",
    "Ez.AA.C76_axes_fails"
   ],
   "note": "Names, lengths, elements and success: all arrays. Axes: if every axis belongs to a dimension, which nothing ensures (C76_axes_fails)."
  },
  {
   "property": "C77",
   "status": "partial",
   "theorems": [
    "Ez.Gens.C77_answers",
    "Ez.Gens.C77_silenced",
    "Ez.Gens.C77_cases",
    "Ez.Gens.C77_causal",
    "Ez.Gens.C77_consumer",
    "Ez.Gens.C77_unprimed",
    "Ez.Gens.C77_compose_partial",
    "Ez.Gens.C77_compose_fails"
   ],
   "note": "Answers, order and causality: all generators. After a generator has raised or returned once, nothing more is published (C77_silenced); generators not made by consumer publish nothing (C77_unprimed). Composition agrees with the chain if no generator but the last yields None (otherwise C77_compose_fails)."
  },
  {
   "property": "C78",
   "status": "partial",
   "theorems": [
    "Ez.Gens.C78_settings_partial",
    "Ez.Gens.C78_answers_partial",
    "Ez.Gens.C78_first_generator",
    "Ez.Gens.C78_lost",
    "Ez.Gens.C78_fails"
   ],
   "note": "Only while tracked attributes do not change. The generator is never replaced (C78_first_generator), messages with a change are lost (C78_lost), and later ones are answered by the old generator (C78_fails)."
  },
  {
   "property": "C79",
   "status": "partial",
   "theorems": [
    "Ez.Timeout.C79_not_early",
    "Ez.Timeout.C79_in_time_partial",
    "Ez.Timeout.C79_kept_alive",
    "Ez.Timeout.C79_never_fails"
   ],
   "note": "Not early, and within one polling interval if there was a message. Without any message never (C79_never_fails). The clock is assumed not to go back."
  },
  {
   "property": "C80",
   "status": "partial",
   "theorems": [
    "Ez.GraphSync.C80_paused",
    "Ez.GraphSync.C80_quiet_partial",
    "Ez.GraphSync.C80_progress_partial",
    "Ez.GraphSync.C80_finite",
    "Ez.GraphSync.C80_told",
    "Ez.GraphSync.C80_answer_partial",
    "Ez.GraphSync.C80_stuck",
    "Ez.GraphSync.C80_deadlock",
    "Ez.GraphSync.C80_paused_deadlock",
    "Ez.GraphSync.C80_late"
   ],
   "note": "That all publishers are paused and each was drained since the command: all runs (C80_paused). Quiet until resume if no broadcast waits for a buffer (otherwise C80_late). Answered if units publish only on publishers registered after the ones they subscribe to and all run when sync starts; otherwise sync and all later commands can block for good (C80_deadlock, C80_paused_deadlock, C80_stuck). Publishers do not join or leave."
  },
  {
   "property": "C81",
   "status": "partial",
   "theorems": [
    "Ez.Updates.C81_in_effect_partial",
    "Ez.Updates.C81_lag",
    "Ez.Updates.C81_subscribed",
    "Ez.Updates.C81_goes_on",
    "Ez.Updates.C81_connect_fails",
    "Ez.Updates.C81_late_fails",
    "Ez.Updates.Overlap.C81_serial_partial",
    "Ez.Updates.Overlap.C81_overlap_fails"
   ],
   "note": "Publisher.create, and connect/disconnect of sessions which do not overlap: for subscribers none of whose updates has timed out (C81_in_effect_partial, C81_serial_partial); with timeouts they lag by at most their number (C81_lag). Subscriber.create: always (C81_subscribed). Violated by GraphService.connect (C81_connect_fails), after a timeout (C81_late_fails) and by overlapping calls (C81_overlap_fails)."
  },
  {
   "property": "C82",
   "status": "partial",
   "theorems": [
    "Ez.Address.C82_placed",
    "Ez.Address.C82_fresh",
    "Ez.Address.C82_once",
    "Ez.Address.C82_failed",
    "Ez.Address.C82_distinct_partial",
    "Ez.Address.C82_relays_added",
    "Ez.Address.C82_relay_units_partial",
    "Ez.Address.C82_slash_fails",
    "Ez.Address.C82_slash_relay_lost"
   ],
   "note": "Addresses, reuse and when adding relays fails: complete (C82_placed, C82_fresh, C82_once, C82_failed, C82_relays_added). Different addresses and relay units of their own: for names without slashes (C82_distinct_partial, C82_relay_units_partial). Violated for component names with slashes (C82_slash_fails, C82_slash_relay_lost)."
  },
  {
   "property": "C83",
   "status": "partial",
   "theorems": [
    "Ez.Control.C83_finite",
    "Ez.Control.C83_halts",
    "Ez.Control.C83_answered_partial",
    "Ez.Control.C83_timeouts_release",
    "Ez.Control.C83_stalls",
    "Ez.Control.C83_paused"
   ],
   "note": "Where a process can come to a halt is characterised exactly (C83_halts), it always does (C83_finite), and timeouts release it (C83_timeouts_release). Answered without timeouts: if no more patches are under way than the settings publisher has buffers and the graph is not paused (C83_answered_partial). Violated with one patch more (C83_stalls) and while paused (C83_paused)."
  },
  {
   "property": "C84",
   "status": "partial",
   "theorems": [
    "Ez.SettingsMeta.C84_plain_partial",
    "Ez.SettingsMeta.C84_unchanged",
    "Ez.SettingsMeta.C84_subclass_kept",
    "Ez.SettingsMeta.C84_shown_partial",
    "Ez.SettingsMeta.C84_fields",
    "Ez.SettingsMeta.C84_uncopied_lost",
    "Ez.SettingsMeta.C84_keys_collide"
   ],
   "note": "Proved: plain data are unchanged (C84_unchanged); the entries are the fields (C84_fields); everything is shown if all parts can be copied and no keys coincide as text (C84_shown_partial); the result is plain if there are no objects of subclasses of the basic types (C84_plain_partial). Violated otherwise: C84_subclass_kept, C84_uncopied_lost, C84_keys_collide."
  },
  {
   "property": "C85",
   "status": "partial",
   "theorems": [
    "Ez.SettingsMeta.C85_fields",
    "Ez.SettingsMeta.C85_defaults",
    "Ez.SettingsMeta.C85_bounds",
    "Ez.SettingsMeta.C85_described",
    "Ez.SettingsMeta.C85_hint_partial",
    "Ez.SettingsMeta.C85_choices",
    "Ez.SettingsMeta.C85_hint_wrong",
    "Ez.SettingsMeta.C85_choices_hidden"
   ],
   "note": "For dataclasses. Proved: entries and required fields (C85_fields), defaults (C85_defaults), bounds (C85_bounds), descriptions and types (C85_described), choices (C85_choices), widgets for the basic types (C85_hint_partial). Violated: widgets of other types (C85_hint_wrong), choices of annotations that have not been evaluated (C85_choices_hidden)."
  },
  {
   "property": "C86",
   "status": "partial",
   "theorems": [
    "Ez.Equality.C86_equal",
    "Ez.Equality.C86_same",
    "Ez.Equality.C86_equal_partial",
    "Ez.Equality.C86_symmetric",
    "Ez.Equality.C86_self",
    "Ez.Equality.C86_nan",
    "Ez.Equality.C86_coordinates_ignored",
    "Ez.Equality.C86_attrs_raise"
   ],
   "note": "Proved: the comparison answers True exactly if everything but the values of coordinate axes is the same (C86_equal, C86_same, C86_symmetric), hence exactly if the content is the same for messages without coordinate axes (C86_equal_partial); a message equals itself (C86_self). Violated: the values of coordinate axes are not compared (C86_coordinates_ignored); attributes that hold arrays raise (C86_attrs_raise). Messages with NaN are unlike their copies (C86_nan)."
  },
  {
   "property": "C87",
   "status": "proved",
   "theorems": [
    "Ez.Equality.C87_round_trip",
    "Ez.Equality.C87_nearest"
   ],
   "note": "In exact arithmetic: floating point rounding is not modelled."
  },
  {
   "property": "C88",
   "status": "partial",
   "theorems": [
    "Ez.TaskRun.C88_does_partial",
    "Ez.TaskRun.C88_prefix",
    "Ez.TaskRun.C88_noted",
    "Ez.TaskRun.C88_serves_partial",
    "Ez.TaskRun.C88_timeit_fails",
    "Ez.TaskRun.C88_parameters_fail",
    "Ez.TaskRun.C88_generator_ignored"
   ],
   "note": "Proved for functions with one or two parameters that are not ordinary generator functions and not decorated with timeit (C88_does_partial, C88_serves_partial), also when broadcasts raise (C88_prefix, C88_noted). Violated otherwise: C88_timeit_fails, C88_parameters_fail, C88_generator_ignored."
  },
  {
   "property": "C89",
   "status": "partial",
   "theorems": [
    "Ez.UnitSetup.C89_given",
    "Ez.UnitSetup.C89_given_first",
    "Ez.UnitSetup.C89_built",
    "Ez.UnitSetup.C89_default",
    "Ez.UnitSetup.C89_default_raises",
    "Ez.UnitSetup.C89_unset",
    "Ez.UnitSetup.C89_wrong_class",
    "Ez.UnitSetup.C89_ignored",
    "Ez.UnitSetup.C89_error_hidden",
    "Ez.UnitSetup.C89_ready",
    "Ez.UnitSetup.C89_outcome",
    "Ez.UnitSetup.C89_no_settings",
    "Ez.UnitSetup.C89_once",
    "Ez.UnitSetup.C89_own_partial",
    "Ez.UnitSetup.C89_default_shared"
   ],
   "note": "Proved: settings given, built, default or unset (C89_given, C89_given_first, C89_built, C89_default, C89_unset); exceptions of the default settings (C89_default_raises); setup (C89_ready, C89_outcome, C89_no_settings, C89_once); objects made by factories are not shared (C89_own_partial). Violated: settings of another class become the value of the first field (C89_wrong_class), arguments beside a settings object are ignored (C89_ignored), a TypeError in the default settings is hidden (C89_error_hidden), objects that are defaults are shared by all units (C89_default_shared)."
  },
  {
   "property": "C90",
   "status": "partial",
   "theorems": [
    "Ez.Context.C90_undone_partial",
    "Ez.Context.C90_reverted_partial",
    "Ez.Context.C90_left",
    "Ez.Context.C90_lost",
    "Ez.Context.C90_stuck",
    "Ez.Context.C90_server_kept"
   ],
   "note": "Proved for clients made before revert is called (C90_undone_partial, C90_reverted_partial); leaving ends if no task of a client has failed (C90_left). Violated: a client made while revert waits stays open and is forgotten (C90_lost), the failed task of a client keeps the session, its connections and the server (C90_stuck), a server started by an entering that fails is kept (C90_server_kept)."
  },
  {
   "property": "C91",
   "status": "proved",
   "theorems": [
    "Ez.Srv.C91_graph",
    "Ez.Srv.C91_owners",
    "Ez.Srv.C91_sessions",
    "Ez.Srv.C91_processes",
    "Ez.Srv.C91_sorted"
   ],
   "note": "C91_graph, C91_owners, C91_sessions, C91_processes: contents; C91_sorted: order."
  },
  {
   "property": "C92",
   "status": "partial",
   "theorems": [
    "Ez.Srv.C92_topic",
    "Ez.Srv.C92_missing",
    "Ez.Srv.C92_collisions",
    "Ez.Srv.C92_rejected",
    "Ez.Srv.C92_returned",
    "Ez.Srv.C92_ended",
    "Ez.Srv.C92_returns_exactly",
    "Ez.Srv.C92_left",
    "Ez.Depart.C92_received_partial",
    "Ez.Depart.C92_lost"
   ],
   "note": "Proved: the topic (C92_topic, C92_missing), the refusal (C92_collisions, C92_rejected), what is broadcast and closed (C92_returned, C92_ended). The subscriber receives the value only if its channel notices the end of the publisher in an orderly way (C92_received_partial); otherwise the value is lost (C92_lost)."
  },
  {
   "property": "C93",
   "status": "partial",
   "theorems": [
    "Ez.Srv.C93_entries",
    "Ez.Srv.C93_own_partial",
    "Ez.Srv.C93_no_units",
    "Ez.Srv.C93_other_process"
   ],
   "note": "Proved while units do not change hands, for processes with units (C93_own_partial); in general entries are what C93_entries says. Violated: processes without units have no entry (C93_no_units); the entry of a process can be that of another (C93_other_process)."
  },
  {
   "property": "C94",
   "status": "partial",
   "theorems": [
    "Ez.Route.C94_built_in",
    "Ez.Route.C94_handler",
    "Ez.Route.C94_response",
    "Ez.Route.C94_in_order",
    "Ez.Route.C94_each",
    "Ez.Route.C94_answered_partial",
    "Ez.Route.C94_ends",
    "Ez.Route.C94_unreadable",
    "Ez.Route.C94_future",
    "Ez.Route.C94_tracing"
   ],
   "note": "Proved: the response of each request (C94_built_in, C94_handler, C94_response, C94_tracing), the order (C94_in_order, C94_each), and that all are answered if no response fails to be written (C94_answered_partial). Violated: a cancelled handler or a response that cannot be pickled ends the loop, so that no later request is answered (C94_ends); unreadable requests have no response (C94_unreadable); a handler's future is refused (C94_future)."
  },
  {
   "property": "C95",
   "status": "partial",
   "theorems": [
    "Ez.Push.C95_account",
    "Ez.Push.C95_in_order",
    "Ez.Push.C95_task",
    "Ez.Push.C95_complete_partial",
    "Ez.Push.C95_sends",
    "Ez.Push.C95_off",
    "Ez.Push.C95_end_cleared",
    "Ez.Push.C95_expired",
    "Ez.Push.C95_batch_lost"
   ],
   "note": "Proved: each sample has one fate (C95_account), order (C95_in_order), a push task exists while tracing is on (C95_task) and sends everything (C95_sends), nothing is lost while the trace is not changed, not polled and does not expire (C95_complete_partial). Violated at the end of a trace: C95_end_cleared, C95_expired, C95_batch_lost."
  },
  {
   "property": "C96",
   "status": "partial",
   "theorems": [
    "Ez.Start.C96_listens",
    "Ez.Start.C96_gone",
    "Ez.Start.C96_one_server",
    "Ez.Start.C96_apart",
    "Ez.Start.C96_decides",
    "Ez.Start.C96_own_steps",
    "Ez.Start.C96_first_port",
    "Ez.Start.C96_given",
    "Ez.Start.C96_never_stuck_partial",
    "Ez.Start.C96_ends",
    "Ez.Start.C96_not_default",
    "Ez.Start.C96_not_shared",
    "Ez.Start.C96_hangs",
    "Ez.Start.C96_hangs_forever",
    "Ez.Start.C96_same_partial",
    "Ez.Start.C96_split"
   ],
   "note": "Proved: what a call decides (C96_decides), that a server it returns listens where it was asked to (C96_listens), at most one server per address (C96_one_server, C96_apart), a given address is taken if it is free (C96_given), callers without a server have no socket (C96_gone), the first free port without an address (C96_first_port), the call ends unless its server fails (C96_ends), which cannot happen without an address (C96_never_stuck_partial), and processes that are given an address never start a server (C96_same_partial). Violated: two callers with one address, of which one never returns (C96_hangs, C96_hangs_forever); a server started without address is not at the documented address (C96_not_default), so that the next program starts another (C96_not_shared); processes of a run that found the default server may start their own (C96_split)."
  },
  {
   "property": "C97",
   "status": "partial",
   "theorems": [
    "Ez.Halt.C97_stops_partial",
    "Ez.Halt.C97_done",
    "Ez.Halt.C97_stalled",
    "Ez.Halt.C97_stalled_reached",
    "Ez.Halt.C97_idle",
    "Ez.Halt.C97_idle_reached",
    "Ez.Halt.C97_orphan",
    "Ez.Halt.C97_orphan_reached",
    "Ez.Halt.C97_crash",
    "Ez.Halt.C97_crash_forever"
   ],
   "note": "Proved: if nobody is in the middle of a request, the server stops after a bounded number of its own steps and closes everything (C97_stops_partial); when stop returns all connections are closed, for Python 3.12.1 and later (C97_done). Violated: a client that stalls while it has the command lock (C97_stalled, all versions); an idle connection (C97_idle, C97_idle_reached); a task cancelled before it runs (C97_orphan); a segment made during the shutdown (C97_crash, C97_crash_forever)."
  },
  {
   "property": "C98",
   "status": "partial",
   "theorems": [
    "Ez.Halt.C98_turn_partial",
    "Ez.Halt.C98_unlocked",
    "Ez.Halt.C98_fair",
    "Ez.Halt.C98_blocked",
    "Ez.Halt.C98_blocked_reached",
    "Ez.Halt.C98_sync_kept"
   ],
   "note": "Proved: the queue is served in order as those before it get done (C98_turn_partial), first come first served (C98_fair); requests that do not need the lock are not held up (C98_unlocked). Violated: a client that sends a command without its arguments keeps the lock (C98_blocked, C98_blocked_reached), and SYNC keeps it even if its client leaves (C98_sync_kept)."
  },
  {
   "property": "C99",
   "status": "partial",
   "theorems": [
    "Ez.Interrupt.C99_status",
    "Ez.Interrupt.C99_unclean",
    "Ez.Interrupt.C99_raises",
    "Ez.Interrupt.C99_force",
    "Ez.Interrupt.C99_graceful",
    "Ez.Interrupt.C99_cleaned_partial",
    "Ez.Interrupt.C99_left_running",
    "Ez.Interrupt.C99_left_process",
    "Ez.Interrupt.C99_deaf",
    "Ez.Interrupt.C99_start_hangs"
   ],
   "note": "Proved: the exit status (C99_status); a further interrupt while the runner waits for the processes ends them and the run (C99_force); if everybody is interrupted while running and the processes end, the run returns and nothing is left (C99_graceful); if the runner has heard of an interrupt and something did not end well, the run does not just return (C99_unclean); without interrupts it raises if and only if something failed (C99_raises); nothing is left after any run that is not interrupted during the cleanup or the start of a process (C99_cleaned_partial). Violated: an interrupt during the cleanup (C99_left_running) or just after a process was started (C99_left_process); at the stop barrier interrupts are ignored, also if a process has died (C99_deaf); an interrupt during set-up is never told to the processes at the start barrier (C99_start_hangs)."
  }
 ]
}