{"id": "C01", "title": "Backpressure accounting is exact", "statement": "After any history of leases and frees on a Backpressure object, a buffer is reported available exactly when no client still holds a lease on it (leased and not freed since), `pressure` is exactly the number of buffers that are not available, and `is_empty`/the sync event is set exactly when every buffer is available. So wait(i) can only complete when buffer i really has no holder, and sync() only when nothing is held anywhere.", "quantifier": "every number of buffers, every finite sequence of lease(client, buffer) / free(client, buffer) / free(client) calls, every client", "why_tests_cant": "The counter, the per-buffer events and the global event are three separately updated pieces of state; a drift needs a particular long history (re-lease, double free, free-all over a mix) that examples do not enumerate.", "anchors": ["src/ezmsg/core/backpressure.py: BufferLease.add/remove/is_empty", "src/ezmsg/core/backpressure.py: Backpressure.lease/_free/free/available/is_empty/sync"]}
{"id": "C02", "title": "Freeing is isolated and idempotent", "statement": "free(client, buffer) removes at most that client's lease on that buffer and free(client) removes exactly that client's leases; no other client's lease is affected, freeing twice is the same as freeing once, and freeing something never leased changes nothing and never raises.", "quantifier": "every reachable Backpressure state, every pair of clients and buffers", "why_tests_cant": "Isolation between two arbitrary clients over all states is a universally quantified frame property.", "anchors": ["src/ezmsg/core/backpressure.py: Backpressure._free/free"]}
{"id": "C03", "title": "The message cache never returns the wrong message", "statement": "Looking up a message id in the cache returns exactly the object most recently stored under that id if it has been neither released, cleared nor displaced by a newer message in the same slot since; in every other case it raises CacheMiss. It never returns another message's object.", "quantifier": "every cache size > 0, every finite history of put_local / put_from_mem / release / clear, every message id", "why_tests_cant": "Slots are shared modulo the buffer count, so confusion needs particular id/size combinations over long histories.", "anchors": ["src/ezmsg/core/messagecache.py: MessageCache.__getitem__/put_local/put_from_mem/_put/_release/release/clear/keys"]}
{"id": "C04", "title": "The cache keeps the newest num_buffers messages and releases every buffer exactly once", "statement": "After putting consecutive message ids, the last num_buffers of them are all retrievable and older ones are not; `keys()` lists exactly the retrievable ids without repetition; and every memory view handed to the cache is released exactly once over the life of the cache (never twice, never leaked once the cache is cleared).", "quantifier": "every cache size > 0, every run of consecutive ids, every finite history of cache operations ending in clear()", "why_tests_cant": "Exactly-once release is a property of whole histories; unit tests check single put/release pairs.", "anchors": ["src/ezmsg/core/messagecache.py: MessageCache._put/_release/release/clear/keys"]}
{"id": "C05", "title": "The topic graph is always acyclic", "statement": "Whatever connects and disconnects clients issue, in whatever order and under whatever owners, no topic is ever reachable from itself through one or more connections.", "quantifier": "every finite sequence of add_edge / remove_edge / remove_owner calls by any owners on any topic names", "why_tests_cant": "Requires reasoning over every reachable graph of any size.", "anchors": ["src/ezmsg/core/dag.py: DAG.add_edge/remove_edge/remove_owner/_prune/_bfs"]}
{"id": "C06", "title": "A connect is refused exactly when it would close a loop, and a refused connect changes nothing", "statement": "connect(a, b) raises the cyclic error if and only if a = b or b already reaches a through existing connections; when it raises, the graph and all edge ownership are exactly as before.", "quantifier": "every reachable graph, every pair of topics, every owner", "why_tests_cant": "Both directions (no false refusals, no false acceptances) over all graphs; a test can only show particular loops.", "anchors": ["src/ezmsg/core/dag.py: DAG.add_edge/_bfs"]}
{"id": "C07", "title": "A connection exists exactly while somebody owns it", "statement": "An edge is present in the graph exactly when some owner has added it and not removed it since; adding or removing under one owner never changes any other owner's hold; the boolean result of add/remove tells exactly whether the set of edges changed; removing an owner removes exactly the edges nobody else owns and reports exactly those.", "quantifier": "every finite history of add_edge / remove_edge / remove_owner, every owner (including the persistent owner None), every edge", "why_tests_cant": "Reference counting by owner over arbitrary histories.", "anchors": ["src/ezmsg/core/dag.py: DAG.add_edge/remove_edge/remove_owner"]}
{"id": "C08", "title": "Upstream and downstream are exactly reachability", "statement": "downstream(t) lists t and exactly the topics reachable from t, upstream(t) lists t and exactly the topics that reach t, each topic once; b is in downstream(a) iff a is in upstream(b). The search always terminates.", "quantifier": "every reachable graph of any size, every topic (present in the graph or not)", "why_tests_cant": "Completeness and termination of a graph search over all graphs.", "anchors": ["src/ezmsg/core/dag.py: _bfs/DAG.downstream/DAG.upstream/DAG.invgraph"]}
{"id": "C09", "title": "Listed topics are exactly the connected topics", "statement": "After any history the node list consists of exactly the topics that are an endpoint of some existing connection; disconnecting prunes precisely the topics left without any connection, and every connection target is itself listed.", "quantifier": "every finite history of add_edge / remove_edge / remove_owner", "why_tests_cant": "Prune correctness depends on the interplay of leaves in the graph and in its inverse over all histories.", "anchors": ["src/ezmsg/core/dag.py: DAG.nodes/_prune/_leaves/invgraph/remove_edge"]}
{"id": "C10", "title": "Subscribers are linked to exactly the publishers upstream of their topic", "statement": "After any history of connects, disconnects, publisher and subscriber creations and departures, the publisher set the server last sent to each live subscriber is exactly the set of live publishers whose topic equals the subscriber's topic or reaches it through connections.", "quantifier": "every history of graph-server requests over any topics, any number of publishers and subscribers", "why_tests_cant": "The server only notifies the clients it thinks are affected; missing one needs a particular topology and history.", "anchors": ["src/ezmsg/core/graphserver.py: api CONNECT/DISCONNECT/PUBLISH/SUBSCRIBE, _notify_downstream_for_topic, _notify_subscriber, _upstream_pubs, _downstream_subs", "src/ezmsg/core/dag.py: DAG.upstream/downstream"]}
{"id": "C11", "title": "A session's connections disappear with the session and nothing else does", "statement": "When a session is cleared or dropped, every connection only that session made is removed, every connection also made by another session or persistently stays, and no other session's ownership changes.", "quantifier": "every server state reachable by session connects/disconnects/clears/drops of any number of sessions", "why_tests_cant": "Crash points of sessions interleaved with other sessions' requests.", "anchors": ["src/ezmsg/core/graphserver.py: _handle_session_edge_request/_clear_session_state/_drop_session/_connect_owner/_disconnect_owner", "src/ezmsg/core/dag.py: DAG.remove_owner"]}
{"id": "C12", "title": "Integers and strings survive the wire and frames never bleed", "statement": "Every integer below 2^64 and every string (with UTF-8 length below 2^64) is decoded to itself from its wire encoding; values outside the range are rejected by the encoder; a sequence of encoded values, concatenated and followed by any other bytes, is read back as that sequence leaving exactly the following bytes; a truncated stream yields an incomplete-read error rather than a value.", "quantifier": "every natural number, every string, every list of values, every trailing byte string", "why_tests_cant": "Round-trip and prefix-freeness over all values.", "anchors": ["src/ezmsg/core/netprotocol.py: uint64_to_bytes/bytes_to_uint/encode_str/read_int/read_str"]}
{"id": "C13", "title": "Addresses round-trip", "statement": "Printing an address and parsing it back yields the same address for every host name without a colon and every port number; a host containing a colon (e.g. an IPv6 literal) is always rejected by the parser.", "quantifier": "every host string, every port", "why_tests_cant": "Universally quantified round trip with an exact failure domain.", "anchors": ["src/ezmsg/core/netprotocol.py: Address.__str__/from_string"]}
{"id": "C14", "title": "A marshalled message is read back intact", "statement": "Writing a message (id, list of byte buffers) into memory and reading it back from that memory gives the same id and the same buffers, whatever bytes follow; the reported total size equals the number of bytes written; memory that does not start with the preamble is refused as uninitialised; a message without buffers is refused.", "quantifier": "every message id < 2^64, every non-empty list of byte buffers of any sizes, every memory at least as large, every previous memory content", "why_tests_cant": "Header/offset arithmetic over all buffer counts and sizes.", "anchors": ["src/ezmsg/core/messagemarshal.py: Marshal.serialize/_write/obj_from_mem/msg_id/_assert_initialized"]}
{"id": "C15", "title": "Marshalling never writes outside its buffer", "statement": "to_mem refuses a target that is not strictly larger than the message and otherwise changes only the first total-size bytes of the target; direct writing (used by publishers) either fits entirely or fails, and never spills past the end of the block.", "quantifier": "every message, every target memory size and content", "why_tests_cant": "Boundary behaviour at every size.", "anchors": ["src/ezmsg/core/messagemarshal.py: Marshal.to_mem/_write"]}
{"id": "C16", "title": "Shared-memory slots are disjoint and in bounds", "statement": "For every segment created by the server, the per-message blocks seen by every process that attaches to it lie inside the segment, do not overlap each other or the header, all have the same size, and are at least as large as requested; a fresh segment reads as 'no message' in every slot.", "quantifier": "every number of buffers >= 1 and every requested buffer size", "why_tests_cant": "Arithmetic over all sizes and indices.", "anchors": ["src/ezmsg/core/shm.py: SHMInfo.create", "src/ezmsg/core/shm.py: SHMContext.__init__/__getitem__/size"]}
{"id": "C17", "title": "A publisher can always place a message in shared memory", "statement": "Whatever the size of the next message, after the publisher's size check (growing the segment if needed) the message fits into its slot, so broadcasting never fails because of message size.", "quantifier": "every segment size, number of buffers and message size", "why_tests_cant": "The failing window is 16 bytes wide out of all sizes.", "anchors": ["src/ezmsg/core/pubclient.py: Publisher.broadcast (buf_size check)", "src/ezmsg/core/shm.py: SHMContext.size"]}
{"id": "C18", "title": "Growing shared memory preserves every message still in use", "statement": "When the publisher grows its segment, every slot that held a message holds the identical message (same id, same buffers) in the new segment and every empty slot stays empty.", "quantifier": "every segment content, number of buffers and new message size that triggers growth", "why_tests_cant": "Depends on the copy's own strict size check for every stored message size.", "anchors": ["src/ezmsg/core/pubclient.py: Publisher.broadcast (reallocation loop)", "src/ezmsg/core/messagemarshal.py: Marshal.copy_obj"]}
{"id": "C19", "title": "A non-leaky subscriber receives every message exactly once and in order", "statement": "The sequence of messages a non-leaky subscriber receives from one publisher is always a prefix of the sequence of messages that publisher broadcast since the subscriber was linked: no loss, no duplication, no reordering, and each with the content that was broadcast.", "quantifier": "every number of publishers, processes, subscribers and buffers, every transport choice per process, every interleaving of broadcasts, network deliveries, receives, releases and acknowledgements", "why_tests_cant": "Interleavings and run lengths are unbounded.", "anchors": ["src/ezmsg/core/pubclient.py: Publisher.broadcast/_handle_channel", "src/ezmsg/core/messagechannel.py: Channel._publisher_connection/_notify_clients/put_local/get/_release_backpressure", "src/ezmsg/core/subclient.py: Subscriber.recv_zero_copy"]}
{"id": "C20", "title": "A message in use is never overwritten", "statement": "While a subscriber has been notified of a message and has not finished with it, looking it up yields that very message with its original content: no buffer is reused before every process that was sent the message has finished with it.", "quantifier": "every schedule and system size as in C19, including leaky subscribers", "why_tests_cant": "Races between publisher wrap-around and slow readers.", "anchors": ["src/ezmsg/core/pubclient.py: Publisher.broadcast", "src/ezmsg/core/messagechannel.py: Channel.get/_release_backpressure", "src/ezmsg/core/backpressure.py", "src/ezmsg/core/messagecache.py"]}
{"id": "C21", "title": "At most num_buffers messages are in flight", "statement": "A publisher never runs more than num_buffers messages ahead of the slowest non-leaky reader of its messages: the number of messages broadcast but not yet finished by some reader never exceeds num_buffers.", "quantifier": "every schedule and system size as in C19", "why_tests_cant": "Bound over all executions.", "anchors": ["src/ezmsg/core/pubclient.py: Publisher.broadcast", "src/ezmsg/core/backpressure.py: Backpressure.wait"]}
{"id": "C22", "title": "No deadlock: a blocked publisher can always be unblocked by its readers", "statement": "In every reachable state, if a publisher is waiting for buffer space then some delivery, receive, release or acknowledgement is possible, and letting readers drain always ends with all backpressure gone, so the broadcast proceeds.", "quantifier": "every reachable state of the system of C19 with fixed links", "why_tests_cant": "Liveness over all schedules.", "anchors": ["src/ezmsg/core/pubclient.py: Publisher.broadcast/_handle_channel", "src/ezmsg/core/messagechannel.py: Channel._release_backpressure/_acknowledge"]}
{"id": "C23", "title": "A leaky subscriber drops only the oldest notifications and hands back their buffers", "statement": "A leaky subscriber's queue never holds more than max_queue notifications; pushing when full discards exactly the oldest one; what remains is always the newest ones in order; every discarded notification's buffer lease is released. What it receives is a subsequence, in order, of what was broadcast.", "quantifier": "every max_queue >= 1, every history of puts and gets, every schedule as in C19", "why_tests_cant": "Drop decisions depend on the whole history.", "anchors": ["src/ezmsg/core/messagechannel.py: LeakyQueue.put/put_nowait/_drop_oldest", "src/ezmsg/core/subclient.py: Subscriber._handle_dropped_notification", "src/ezmsg/core/messagechannel.py: Channel.release_without_get"]}
{"id": "C24", "title": "A leaky subscriber with a short queue never blocks a publisher", "statement": "If every subscriber of a publisher is leaky with max_queue below num_buffers minus the messages it may be holding, then once deliveries are processed the publisher's next buffer is available without any subscriber receiving anything.", "quantifier": "every schedule, every max_queue and num_buffers with max_queue + 1 < num_buffers (one message may be held)", "why_tests_cant": "Depends on modular arithmetic between queue length and buffer ring in every state.", "anchors": ["src/ezmsg/core/subclient.py: Subscriber._graph_connection (max_queue warning)", "src/ezmsg/core/messagechannel.py: LeakyQueue"]}
{"id": "C25", "title": "A departing subscriber never leaves the publisher blocked", "statement": "When a subscriber is unlinked from a publisher while other clients keep the channel open, every buffer that only it was holding becomes free for the publisher again.", "quantifier": "every channel state, every departing client", "why_tests_cant": "Depends on what was queued at the instant of departure.", "anchors": ["src/ezmsg/core/messagechannel.py: Channel.unregister_client/_release_backpressure", "src/ezmsg/core/channelmanager.py: ChannelManager.unregister"]}
{"id": "C26", "title": "Every linked process gets each message exactly one way", "statement": "For each connected process a broadcast message is handed over by exactly one of in-process, shared memory or TCP; with force_tcp only TCP is used; shared memory and in-process delivery are used only with processes that attached the segment; in-process delivery only within the same process.", "quantifier": "every combination of settings, environment defaults, process ids and attach outcomes, any number of channels", "why_tests_cant": "Exclusivity over all combinations, including environment defaults.", "anchors": ["src/ezmsg/core/pubclient.py: _resolve_force_tcp/_resolve_allow_local/_should_use_local_fast_path/_can_deliver_locally/_can_deliver_via_shm/broadcast"]}
{"id": "C27", "title": "A message nobody listens to never blocks its publisher", "statement": "Broadcasting with no linked subscriber, or into channels without clients, never leaves a lasting lease: after in-flight deliveries are processed and acknowledged the publisher has no backpressure.", "quantifier": "every schedule, any number of client-less channels", "why_tests_cant": "Requires all interleavings of deliveries and acks.", "anchors": ["src/ezmsg/core/messagechannel.py: Channel._publisher_connection/_notify_clients/put_local/_acknowledge"]}
{"id": "C28", "title": "pause blocks broadcasts, resume releases them, sync returns only when drained", "statement": "While a publisher is paused no message id is consumed and nothing is sent; sync pauses the publisher and completes only in a state in which no reader holds or awaits any message.", "quantifier": "every interleaving of pause/resume/sync with broadcasts and acknowledgements", "why_tests_cant": "Interleavings.", "anchors": ["src/ezmsg/core/pubclient.py: Publisher.pause/resume/sync/broadcast/_graph_connection"]}
{"id": "C29", "title": "One unit address is owned by at most one process", "statement": "At every time each unit address is owned by at most one connected process; a registration or ownership update claiming a unit owned by another process is refused with an error and changes nothing; a disconnect frees exactly that process's units.", "quantifier": "every history of process registrations, ownership updates and disconnects", "why_tests_cant": "Histories with conflicting claims and partial updates.", "anchors": ["src/ezmsg/core/graphserver.py: _handle_process_register/_handle_process_update_ownership/_process_owner"]}
{"id": "C30", "title": "Every process-control request is answered exactly once", "statement": "Each request routed to a process is completed exactly once: by the response of the process it was sent to, by a timeout, or by that process disconnecting; a response with an unknown or already completed request id, or from another process, completes nothing.", "quantifier": "every interleaving of requests, responses (also forged or late), timeouts and disconnects", "why_tests_cant": "Interleavings of late and duplicate responses.", "anchors": ["src/ezmsg/core/graphserver.py: _route_process_request/_handle_process_route_response/_handle_process"]}
{"id": "C31", "title": "The settings/topology event log is gap-free, ordered and bounded", "statement": "Event sequence numbers are 1,2,3,... in the order of occurrence without gaps or repeats; the retained history is always exactly the newest events up to the retention limit; asking for events after seq n returns exactly the retained events with a larger number, in order.", "quantifier": "every history of events, every retention limit, every n", "why_tests_cant": "Long histories beyond the retention limit.", "anchors": ["src/ezmsg/core/graphserver.py: _append_settings_event_locked/_append_topology_event_locked/_handle_session_settings_events"]}
{"id": "C32", "title": "A reader following settings events reconstructs the settings snapshot", "statement": "Applying all settings events in order to an empty map yields exactly the current settings snapshot.", "quantifier": "every history of registrations, updates, session and process departures", "why_tests_cant": "Long mixed histories.", "anchors": ["src/ezmsg/core/graphserver.py: _append_settings_event_locked/_apply_session_metadata_settings_locked/_remove_settings_for_process_locked/_remove_settings_for_session_locked"]}
{"id": "C33", "title": "A slow event subscriber loses only the oldest events", "statement": "A subscriber's event queue never exceeds its bound, contains the newest events in order, and when it overflows exactly the oldest queued event is discarded.", "quantifier": "every history of events and reads, every bound >= 1", "why_tests_cant": "Unbounded histories.", "anchors": ["src/ezmsg/core/graphserver.py: _queue_stream_event"]}
{"id": "C34", "title": "Units are partitioned over processes", "statement": "Grouping components into processes places every unit of the system into exactly one process; units named together stay together, and with force_single_process there is exactly one process containing all units.", "quantifier": "every finite tree of collections and units and every choice of process components", "why_tests_cant": "All tree shapes and process choices.", "anchors": ["src/ezmsg/core/backend.py: collect_processes/_collect_processes/ExecutionContext.setup", "src/ezmsg/core/backend.py: crawl_components"]}
{"id": "C35", "title": "Relays do not change who hears whom", "statement": "Materialising collection boundary relays rewrites connections so that a publisher's messages reach a subscriber through the rewritten graph plus relay forwarding if and only if they reached it in the declared network; what arrives at a boundary goes to its relay alone (an output boundary: comes from its relay alone).", "quantifier": "every network definition and every set of relay boundaries", "why_tests_cant": "All graphs and relay placements.", "anchors": ["src/ezmsg/core/backend.py: ExecutionContext.setup (relay rewriting)", "src/ezmsg/core/relay.py"]}
{"id": "C36", "title": "Pruning a displayed graph keeps the connectivity between real endpoints", "statement": "Removing proxy topics from a graph for display never invents or loses a path between the remaining topics, and reports exactly the proxies it removed.", "quantifier": "every graph", "why_tests_cant": "All graphs.", "anchors": ["src/ezmsg/core/graph_util.py: prune_graph_connections"]}
{"id": "C37", "title": "Patching one settings field changes exactly that field", "statement": "Updating a (possibly nested) settings field by dotted path yields settings in which that path reads back the new value and every other path is unchanged; an unknown field is rejected and changes nothing.", "quantifier": "every nested settings record, every path, every value", "why_tests_cant": "All record shapes.", "anchors": ["src/ezmsg/core/backendprocess.py: _replace_settings_field/_patch_object_field"]}
{"id": "C38", "title": "A process has one channel per publisher, open exactly while it has clients", "statement": "Within a process, for each publisher there is at most one channel; it exists exactly while some client is registered and every registered client is served by that one channel.", "quantifier": "every interleaving of register and unregister calls", "why_tests_cant": "Channel creation suspends, so overlapping registrations interleave.", "anchors": ["src/ezmsg/core/channelmanager.py: ChannelManager._register/unregister"]}
{"id": "C39", "title": "Port scanning picks the first usable port", "statement": "With no explicit port the socket is bound to the smallest port in the range that is neither reserved nor in use, and an error is raised exactly when there is none.", "quantifier": "every range, reserved list and set of busy ports", "why_tests_cant": "All port configurations.", "anchors": ["src/ezmsg/core/netprotocol.py: create_socket"]}
{"id": "C40", "title": "MessageGate forwards exactly what its state says", "statement": "A gate forwards a message unchanged exactly when it is open at arrival, never duplicates or reorders, and after default_after messages since the last change reverts to its default state.", "quantifier": "every sequence of gate commands and messages, every setting", "why_tests_cant": "All histories.", "anchors": ["src/ezmsg/util/messagegate.py: MessageGate.set_gate/on_gate/on_input"]}
{"id": "C41", "title": "MessageQueue preserves order and loses only when leaky", "statement": "The queue publishes messages in arrival order; non-leaky queues lose nothing and never hold more than maxsize; leaky queues hold at most maxsize and drop only the oldest waiting message.", "quantifier": "every sequence of arrivals and departures, every maxsize", "why_tests_cant": "All histories.", "anchors": ["src/ezmsg/util/messagequeue.py: MessageQueue.on_message/send_message"]}
{"id": "C42", "title": "MessageLogger writes every message to every file open when it arrived", "statement": "Each log file consists of a start marker followed by exactly the messages that arrived while the file was open, in order, independent of the write period.", "quantifier": "every history of start/stop/message/flush/shutdown events", "why_tests_cant": "Buffered writes interleave with opens and closes.", "anchors": ["src/ezmsg/util/messagelogger.py: MessageLogger.open_file/close_file/on_message/buffered_write/shutdown"]}
{"id": "C43", "title": "Chunking loses nothing", "statement": "Concatenating the chunks yields the input along the chunked axis, every chunk but the last has exactly chunk_len entries, the last has between 1 and chunk_len, and chunk k's time offset is k*chunk_len/fs + tzero.", "quantifier": "every array length >= 1, every chunk length >= 1", "why_tests_cant": "All sizes, in particular non-multiples.", "anchors": ["src/ezmsg/util/messages/chunker.py: array_chunker", "src/ezmsg/util/messages/axisarray.py: slice_along_axis"]}
{"id": "C44", "title": "Integer selection keeps data and coordinates aligned", "statement": "After isel with a slice along a linear axis, element j of the result has the data and the coordinate value of the element it was taken from.", "quantifier": "every axis length, gain, offset and slice (start, stop, step)", "why_tests_cant": "All slices.", "anchors": ["src/ezmsg/util/messages/axisarray.py: AxisArray.isel/LinearAxis.value"]}
{"id": "C45", "title": "Logged messages decode to what was encoded", "statement": "Encoding a message tree of JSON scalars, lists, string-keyed dicts, dataclasses, arrays and pickled objects and decoding it gives the same tree, provided no plain dict uses the reserved type key.", "quantifier": "every message tree", "why_tests_cant": "All nestings.", "anchors": ["src/ezmsg/util/messagecodec.py: MessageEncoder.default/_object_hook"]}
{"id": "C46", "title": "Rate never sleeps negative or longer than a period and does not drift", "statement": "Each computed sleep lies between 0 and the period; when the loop body is fast enough, the k-th wake-up is scheduled exactly k periods after the start; after a long stall the schedule restarts at the current time.", "quantifier": "every sequence of clock readings", "why_tests_cant": "All clock histories including backward jumps.", "anchors": ["src/ezmsg/util/rate.py: Rate._remaining/_sleep_logic"]}
{"id": "C47", "title": "Overlapping broadcasts on one publisher are safe", "statement": "If two tasks broadcast on the same publisher at overlapping times, every subscriber still receives both messages, each once, with the right content, and no buffer in use is overwritten.", "quantifier": "every interleaving of two or more concurrent broadcast calls at their suspension points", "why_tests_cant": "Interleavings at await points.", "anchors": ["src/ezmsg/core/pubclient.py: Publisher.broadcast"]}
{"id": "C48", "title": "Growing shared memory twice does not cut off a lagging reader", "statement": "A reader that has not yet processed the notification of a first segment growth still receives all messages if the publisher grows the segment again in the meantime. Nobody is held up: in finitely many steps the clients handle all that was sent to them, and then the publisher can grow the segment and send again.", "quantifier": "every interleaving of growths and channel deliveries", "why_tests_cant": "Requires a particular race between segment lifetime and delivery.", "anchors": ["src/ezmsg/core/pubclient.py: Publisher.broadcast", "src/ezmsg/core/messagechannel.py: Channel._publisher_connection", "src/ezmsg/core/shm.py: SHMInfo._release"]}
{"id": "C49", "title": "Shared memory is unlinked exactly when its last user leaves", "statement": "A segment stays attachable as long as some lease on it is alive and is removed exactly when the last lease ends; it is never removed twice and leases of other segments are unaffected.", "quantifier": "every history of create/attach/lease-end events", "why_tests_cant": "All histories of users.", "anchors": ["src/ezmsg/core/shm.py: SHMInfo.lease/_release", "src/ezmsg/core/graphserver.py: SHM_CREATE/SHM_ATTACH"]}
{"id": "C50", "title": "The total trigger fires exactly at the threshold", "statement": "TerminateOnTotal requests termination at exactly the first event at which a total is set and at least that many messages were received.", "quantifier": "every interleaving of message and total events", "why_tests_cant": "All histories.", "anchors": ["src/ezmsg/util/terminate.py: TerminateOnTotal.on_total/on_message/maybe_terminate"]}
{"id": "C51", "title": "The settings snapshot shows the latest report, else the initial value", "statement": "For each component the settings snapshot shows the last value reported by a process that is still connected, if there is one; otherwise the initial value from the metadata of the session that registered the component and did not clear or end since; and it contains nothing else.", "quantifier": "every history of session registrations, clears and ends, process registrations, settings reports and process departures", "why_tests_cant": "All interleavings of several sessions and processes claiming the same component.", "anchors": ["src/ezmsg/core/graphserver.py: _handle_settings_update/_apply_session_metadata_settings_locked/_remove_settings_for_process_locked/_remove_settings_for_session_locked/_settings_snapshot"]}
{"id": "C52", "title": "Topology events report exactly the topology changes", "statement": "A step of the server adds at most one topology event: GRAPH_CHANGED exactly when some connection appears or disappears, listing exactly the topics into which connections changed; PROCESS_CHANGED exactly for the process whose set of units changed or that disconnected.", "quantifier": "every reachable server state and every request", "why_tests_cant": "All states: shared ownership makes most connects and disconnects invisible.", "anchors": ["src/ezmsg/core/graphserver.py: _connect_owner/_disconnect_owner/_clear_session_state/_handle_process_register/_handle_process_update_ownership/_append_topology_event_locked"]}
{"id": "C53", "title": "Selection by coordinate keeps exactly the requested range", "statement": "sel with a range of coordinates along a linear axis keeps a run of neighbouring elements with their data and coordinates: every element whose coordinate lies strictly between start - gain/2 and stop - gain/2, none outside.", "quantifier": "every array, gain > 0, offset, start and stop label, every round-to-nearest function", "why_tests_cant": "All labels, including those between samples and outside the axis.", "anchors": ["src/ezmsg/util/messages/axisarray.py: AxisArray.sel/isel/LinearAxis.index"]}
{"id": "C54", "title": "Transposition moves nothing", "statement": "AxisArray.transpose with dimension names succeeds exactly for rearrangements of the array's names, and the element at a given index per named dimension, the lengths, axes, attributes and key are unchanged.", "quantifier": "every array of every rank, every list of names", "why_tests_cant": "All permutations of all ranks.", "anchors": ["src/ezmsg/util/messages/axisarray.py: AxisArray.transpose"]}
{"id": "C55", "title": "Iterating over a dimension visits every slice once, in order", "statement": "iter_over_axis over a dimension of length n yields n arrays without that dimension; the k-th holds exactly the elements at index k, with the other lengths and axes, attributes and key.", "quantifier": "every array, every dimension name", "why_tests_cant": "All ranks and positions of the dimension.", "anchors": ["src/ezmsg/util/messages/axisarray.py: AxisArray.iter_over_axis"]}
{"id": "C56", "title": "Concatenation keeps every element, in order", "statement": "AxisArray.concatenate along a dimension of the arrays: the length is the sum, and index (total of earlier lengths + i) of the result is index i of its array, with its coordinate if all arrays carry one-dimensional coordinate axes; along a new name it stacks: index k holds array k. filter_key keeps exactly the arrays with that key; the key survives only if all agree. Arrays that agree in their other dimensions and axes can be joined: neither concatenating nor stacking them raises.", "quantifier": "every list of arrays, every dimension name, axis and filter key", "why_tests_cant": "All numbers of arrays, shapes and ranks.", "anchors": ["src/ezmsg/util/messages/axisarray.py: AxisArray.concatenate"]}
{"id": "C57", "title": "Sliding windows read the right elements and stay inside the array", "statement": "For window length 1..n and step >= 1, sliding_win_oneaxis gives floor((n - nwin)/step) + 1 windows; entry j of window w is entry w*step + j of the input, which lies inside it. The strided and the generic implementation agree.", "quantifier": "every array, memory layout (strides), axis, window length and step", "why_tests_cant": "Stride arithmetic for all layouts; an error reads foreign memory.", "anchors": ["src/ezmsg/util/messages/axisarray.py: sliding_win_oneaxis/_sliding_win_strided/_sliding_win_generic"]}
{"id": "C58", "title": "The settings a process tracks for a unit are the ones the unit has", "statement": "Once all settings messages are processed, the tracked settings (the base of the next field patch) are the last settings the unit was given, and the unit has the result of applying all settings messages and patches in order; the graph server is told exactly what the unit was given. Nothing gets stuck: a request under way can be finished, every waiting message received, and the next request taken.", "quantifier": "every interleaving of settings messages of other publishers, field patches and their processing", "why_tests_cant": "The handler and the subscriber interleave at every await; the failing orders are rare.", "anchors": ["src/ezmsg/core/backendprocess.py: process_request_handler/report_settings_update_cb", "src/ezmsg/core/processclient.py: _io_loop"]}
{"id": "C59", "title": "Every coroutine subscribed to a stream sees every message until it completes", "statement": "Without strict shutdown: each coroutine is called with all messages in order up to the one at which it raises Complete or NormalTermination, whatever the others do; what it yields is published in order; a message is held until all running coroutines were called with it; the subscriber closes exactly when all completed; the process terminates exactly when one raised NormalTermination.", "quantifier": "every set of coroutines, their behaviour (a function of all messages seen), iteration order and message sequence", "why_tests_cant": "Needs all combinations of exceptions, completions and set orders.", "anchors": ["src/ezmsg/core/backendprocess.py: task_wrapper/handle_subscriber"]}
{"id": "C60", "title": "A process control command is told the server's answer to that command", "statement": "report_settings_update, register and update_ownership succeed exactly when the server answered that command with COMPLETE. Nothing gets stuck: as many answers as commands wait end all of them, and the next command can be written.", "quantifier": "every interleaving of commands, answers and timeouts", "why_tests_cant": "Answers carry no identification; needs all interleavings with timeouts.", "anchors": ["src/ezmsg/core/processclient.py: _write_payload/_io_loop"]}
{"id": "C61", "title": "Every session command ends, with the server's reply to it or with an error", "statement": "Commands of a GraphContext session are written in the order issued; each returns the reply to it; when the session closes or the connection is lost all commands not yet answered raise. With a server that serves what it is sent every command issued ends, with its response unless the session was asked to close before.", "quantifier": "every interleaving of issuing, closing, replies, broken replies and connection loss", "why_tests_cant": "Needs failures at every point of every interleaving.", "anchors": ["src/ezmsg/core/graphcontext.py: _session_io_loop/_session_command/_close_session"]}
{"id": "C62", "title": "A publisher that leaves does not disturb anybody", "statement": "After a publisher is closed, its subscribers still receive the messages that had arrived, nothing raises in subscribers or in other publishers, and the messages of other publishers are delivered as before.", "quantifier": "every execution of any number of publishers, channels and subscribers; publishers may leave and channels may notice it at any time", "why_tests_cant": "The failing schedules need a departure between arrival and receipt; tests close publishers when everything is idle.", "anchors": ["src/ezmsg/core/pubclient.py: Publisher.close", "src/ezmsg/core/messagechannel.py: _publisher_connection/_notify_clients", "src/ezmsg/core/subclient.py: recv_zero_copy/_handle_dropped_notification"]}
{"id": "C63", "title": "A subscriber is connected to exactly the publishers of the last update", "statement": "After each UPDATE read from the graph server the subscriber is registered with the channels of exactly the publishers named, and has answered; Subscriber.create returns after the first COMPLETE.", "quantifier": "every sequence of updates, every traversal order of the sets, every outcome of registering and unregistering", "why_tests_cant": "Needs publishers that vanish between the server's update and the subscriber's registration.", "anchors": ["src/ezmsg/core/subclient.py: _graph_connection/create", "src/ezmsg/core/channelmanager.py: register/unregister"]}
{"id": "C64", "title": "Processes joining or leaving during a broadcast do not disturb it", "statement": "broadcast never raises because a channel connected or disconnected while it was sending; every channel connected from start to end is sent the message once; ids are never used twice; a channel that is gone holds no buffer. Joins, acknowledgements and departures are always taken; a broadcast that is not disturbed comes to its end.", "quantifier": "every interleaving of one publisher's sends with channels joining, hanging up, being noticed lost, being removed, and acknowledgements; any number of channels and buffers", "why_tests_cant": "Needs a connect or disconnect exactly while drain is suspended on a slow connection.", "anchors": ["src/ezmsg/core/pubclient.py: broadcast/_handle_channel/_channel_connect"]}
{"id": "C65", "title": "A profiling snapshot counts exactly the messages", "statement": "messages_published_total (messages_received_total) is the number of messages published (taken) since the endpoint registered; the window count is the number since the previous snapshot, or since registration if that is later, and 0 in the first snapshot of a process id; the rate is that count over the time between; exactly the registered endpoints are listed; the in-flight number is the one reported last.", "quantifier": "every sequence of calls to the registry, any endpoints, any times", "why_tests_cant": "Needs all interleavings of registration, publishing, receiving, trace control, batches and snapshots.", "anchors": ["src/ezmsg/core/profiling.py: ProfileRegistry.snapshot/_PublisherMetrics/_SubscriberMetrics"]}
{"id": "C67", "title": "Trace samples are collected once, in order, and only while tracing is on", "statement": "While tracing is set and not expired, the batches return what an endpoint recorded in order and without repetition, if its buffer is full losing the oldest ones, no more than necessary; this holds from the moment tracing is set or, for an endpoint that registers later, from its registration; a batch never has more samples than asked for; a batch shorter than asked for means everything was returned; every n-th message is recorded; over the whole process samples come ordered by time; nothing is returned when tracing is off or expired.", "quantifier": "every sequence of calls to the registry, any endpoints, buffer size, batch sizes, filters and times (order by time: a clock that does not go back)", "why_tests_cant": "The merge depends on the contents of all queues; needs all interleavings of recording and collecting.", "anchors": ["src/ezmsg/core/profiling.py: ProfileRegistry.trace_batch/set_trace_control/_expire_trace_control_if_needed"]}
{"id": "C66", "title": "A publisher reports how many of its messages are in flight", "statement": "inflight_messages_current in a profiling snapshot is the number of buffers of the publisher that some channel still uses: between 0 and num_buffers, and it goes back when messages are consumed.", "quantifier": "every configuration of publishers, channels (in-process, shared memory, TCP) and subscribers, every interleaving", "why_tests_cant": "The number is stored at some places and not at others; which of them comes last depends on the schedule and on where the subscribers live.", "anchors": ["src/ezmsg/core/pubclient.py: broadcast/_handle_channel (sample_inflight, record_publish)", "src/ezmsg/core/messagechannel.py: put_local/_release_backpressure", "src/ezmsg/core/backpressure.py: Backpressure.pressure"]}
{"id": "C68", "title": "The profiling stream gives every follower each sample once, losing only the oldest", "statement": "A follower of the profiling stream gets the trace samples a connected process pushed in the order pushed and none twice; each round gives the oldest it has not got among the newest EZMSG_PROFILE_TRACE_BUFFER_LIMIT, at most max_samples; a round with fewer means it has caught up; only the processes asked for appear, with the pid and host they registered; nothing comes from a process after it has left.", "quantifier": "every sequence of connections, registrations, pushes, departures and rounds of any number of processes and followers", "why_tests_cant": "Depends on how pushes and rounds interleave with the buffer limit; followers must not influence each other.", "anchors": ["src/ezmsg/core/graphserver.py: _collect_profiling_trace_stream_batch/_handle_profiling_subscriber/_handle_process_profiling_trace_update_request/_handle_process"]}
{"id": "C69", "title": "Synchronous subscriptions hand every message to their callback once, in order", "statement": "With SyncContext, the callback of a subscription is called with every message that reaches its queue, once and in order, up to those still queued; a message waiting when spin_once is called is handed over before it returns, each subscription at most once per call; every message is handed back right after its callback, also if that raises; spin_once returns True exactly if it called a callback; shutdown, from a callback or another thread, loses no message already taken, and the context is closed once.", "quantifier": "every interleaving of arriving messages, receive tasks, callbacks (returning, raising, shutting down, interrupted), spin, spin_once and shutdown; any subscriptions", "why_tests_cant": "Which messages are taken together and in which order callbacks run depends on the event loop; shutdown can hit any point.", "anchors": ["src/ezmsg/core/sync.py: SyncContext.spin/spin_once/shutdown/_finalize_shutdown", "src/ezmsg/core/sync.py: _recv_any", "src/ezmsg/core/subclient.py: recv_zero_copy"]}
{"id": "C70", "title": "Processes start together and stop together", "statement": "No coroutine, main function or publisher of a unit runs before every process has set up all its units; no process shuts down units or closes publishers and subscribers before everything has stopped running in every process; after NormalTermination in any process, after GraphRunner.stop(), or when everything has completed, every process exits and stop() or run_blocking() returns; if the set-up of a process fails, all exit and the caller is told.", "quantifier": "any number of processes, coroutines and main functions, started by start or run_blocking; every interleaving of set-ups, failures, interrupts, completions and terminations", "why_tests_cant": "Depends on how several operating system processes interleave at two barriers, with failures at any point; a hang shows only in the schedule that has it.", "anchors": ["src/ezmsg/core/backendprocess.py: DefaultBackendProcess.process/monitor_termination", "src/ezmsg/core/backend.py: ExecutionContext/GraphRunner.start/stop/_run_main_process"]}
{"id": "C71", "title": "MessageReplay publishes recordings line by line, on time, and obeys pause and stop", "statement": "For every file taken from the queue the replay unit publishes a status per line and exactly the recorded messages in order, then the final status and the number of messages; without stops, all files asked for are played in order and completely. In real time no message is published before it is due, and exactly when due if no time is lost; at a fixed rate messages are at least the period apart. While paused at most one message is published. A stop ends the current file (restarting it with False) and, with True, drops the queue; a file is cut only if a stop was asked for. Replaying what MessageLogger recorded publishes what was logged.", "quantifier": "every list of files, lines, rates and time stamps; every interleaving of requests, pauses, stops, the passing of time and the generator", "why_tests_cant": "Interleavings of requests with a generator suspended at six places, over unboundedly many lines and times, cannot be sampled; a lost stop shows only in a window between two publications.", "anchors": ["src/ezmsg/util/messagereplay.py: MessageReplay.replay/queue_file/set_paused/stop", "src/ezmsg/util/messagelogger.py: MessageLogger"]}
{"id": "C72", "title": "A compact graph shows the topmost components of the chosen level and all connections between them", "statement": "get_compactified_graph shows each node as itself or as a component at most compact_level levels above it; the keys shown are exactly those of the graph, and the connections shown exactly those between nodes shown apart, so nothing is invented or lost. Level 0 changes nothing; a graph is refused exactly if one node is part of another. Each node is shown as the topmost component above it whose level is at most compact_level, so no node shown is part of another one.", "quantifier": "every graph dictionary, naming hierarchy, compact level and iteration order of the sets", "why_tests_cant": "Levels interact: a node left at one level changes the numbers used at the next. Tests cover level 1 and 2, at which the mistake does not show; hierarchies of any depth cannot be sampled.", "anchors": ["src/ezmsg/core/graph_util.py: get_compactified_graph, _pipeline_levels, _validate_connections_are_leaf_nodes"]}
{"id": "C73", "title": "Drawings of graphs show every node once in its subgraphs and every connection once", "statement": "The text made by graph_string, read as nested subgraphs, nodes and connections, is well nested; it shows every key exactly once, inside the subgraphs its path names and with its own identifier, begins a subgraph exactly once for each component around a node, and draws every connection exactly once. It raises exactly if a target is no key or a key is inside an earlier key; a key inside a later key is lost. Compact graphs can be drawn completely.", "quantifier": "every graph dictionary, any names, any order of the keys", "why_tests_cant": "A lost node or a misplaced subgraph depends on the order of keys and on names nested to any depth; tests compare a few expected strings.", "anchors": ["src/ezmsg/core/graph_util.py: graph_string", "src/ezmsg/core/graphserver.py: GraphService.get_formatted_graph"]}
{"id": "C74", "title": "A unit runs the tasks, threads, main function and streams which its class has", "statement": "The tasks, threads and streams collected for a unit class, and its main function, are the attributes which Python finds on the class: for every name the field of the first class in the method resolution order which has it, if it is marked as one. Overriding a task in a subclass replaces it. If only the last base of each class may have a main function, every class can be made.", "quantifier": "every list of class statements, any bases, any fields, any method resolution order which puts subclasses before their bases", "why_tests_cant": "Which of several inherited functions runs depends on the shape of the whole hierarchy; tests use single inheritance.", "anchors": ["src/ezmsg/core/unit.py: UnitMeta.__init__", "src/ezmsg/core/component.py: ComponentMeta.__init__", "src/ezmsg/core/backendprocess.py: DefaultBackendProcess.process"]}
{"id": "C75", "title": "Two-dimensional views show every element, and what is written through them is in the array", "statement": "as2d and view2d give a two-dimensional array whose rows are the slices of the chosen dimension and whose columns run over all other indices in row-major order; every element is shown exactly once. After a with view2d block the array contains what the two-dimensional array contained at its end, whether numpy made a view or a copy; a block that writes nothing changes nothing. shape2d tells the shape.", "quantifier": "every array of any number of dimensions, every dimension, every block, sharing memory or not", "why_tests_cant": "Copies are made only for some memory layouts, and an exchanged pair of indices shows only with three or more dimensions of different length.", "anchors": ["src/ezmsg/util/messages/axisarray.py: as2d", "src/ezmsg/util/messages/axisarray.py: view2d", "src/ezmsg/util/messages/axisarray.py: shape2d"]}
{"id": "C76", "title": "Renaming and dropping dimensions and setting keys leaves the data alone", "statement": "ModifyAxis succeeds exactly if dropped dimensions have length 1 and the new names are distinct; then every remaining dimension has its new name, its old length, its old axis and its old place, every element is found under the renamed indices, and attributes and key are kept. SetKey changes only the key; FilterOnKey passes on exactly the arrays with its key. Units use the settings that arrived last.", "quantifier": "every array with named dimensions, every map of names, every sequence of settings and arrays", "why_tests_cant": "Exchanging names, dropping several dimensions and colliding names are combinations tests cover only singly.", "anchors": ["src/ezmsg/util/messages/modify.py: ModifyAxisTransformer.__call__", "src/ezmsg/util/messages/modify.py: ModifyAxis", "src/ezmsg/util/messages/key.py: SetKey", "src/ezmsg/util/messages/key.py: FilterOnKey"]}
{"id": "C77", "title": "A unit made from a generator publishes the generator's answers, and composed generators act like a chain of units", "statement": "A Gen unit publishes exactly the values the generator answers, except None, in the order of the messages, at most one per message; what it published does not depend on later messages. A message for which the generator raises is left out, and the others are answered. A function decorated by consumer gives a generator ready for its first message, or raises. Calling compose(*generators) with one value after another gives what the chain of Gen units publishes.", "quantifier": "every generator (any state, any answers, ending or raising anywhere), every sequence of messages, every chain", "why_tests_cant": "Tests send a few messages through generators which answer each of them; None in the middle of a chain and exceptions change everything after them.", "anchors": ["src/ezmsg/util/generator.py: consumer", "src/ezmsg/util/generator.py: compose", "src/ezmsg/util/generator.py: Gen.on_message"]}
{"id": "C78", "title": "Units made by gen_to_unit follow the attributes of messages they track", "statement": "A unit made by gen_to_unit answers every message by the generator made from its settings and, for the attributes tracked by msg_to_state, the values of the message; no message is lost.", "quantifier": "every generator function, every settings, every map of attributes, every sequence of messages", "why_tests_cant": "The tests never change a tracked attribute.", "anchors": ["src/ezmsg/util/gen_to_unit.py: gen_to_unit", "src/ezmsg/util/gen_to_unit.py: check_fields"]}
{"id": "C79", "title": "TerminateOnTimeout terminates in time and not before", "statement": "TerminateOnTimeout ends the program if and only if no message was received for the time in its settings: not earlier, not later than the next poll, once, and also if no message was ever received.", "quantifier": "every sequence of messages and polls in the order of their times, every limit and polling interval", "why_tests_cant": "Tests wait for one timeout; they cannot try all interleavings of messages and polls around the limit.", "anchors": ["src/ezmsg/util/terminate.py: TerminateOnTimeout"]}
{"id": "C80", "title": "Synchronizing a graph leaves it quiet and does not block it", "statement": "GraphContext.sync returns when every publisher of the graph is paused and no message is in flight in any of them; nothing is in flight from then on until resume is called; and sync does return, so that later calls of resume, connect and disconnect are carried out. Calls of pause and resume are carried out: when the publishers have read what the server sent them, they are paused or run as the last call said.", "quantifier": "every graph of publishers and units, every order in which publishers registered, every interleaving of publications, handlers, buffers, pause, resume and sync", "why_tests_cant": "Tests synchronize a few publishers with nothing between them; whether sync returns depends on the order in which publishers registered and on which messages are being handled when the command arrives.", "anchors": ["src/ezmsg/core/graphserver.py: GraphServer.api", "src/ezmsg/core/pubclient.py: Publisher._graph_connection, Publisher.sync, Publisher.broadcast", "src/ezmsg/core/backendprocess.py: handle_subscriber", "src/ezmsg/core/graphcontext.py: GraphContext.sync, GraphContext.pause, GraphContext.resume"]}
{"id": "C81", "title": "Calls which change the graph return when subscribers have applied the change", "statement": "When creating a publisher, connecting or disconnecting returns, every subscriber downstream has applied its new list of publishers, so that a message published next reaches exactly the subscribers it should; when creating a subscriber returns, it is connected to its publishers. A subscriber which does not answer does not hold up the server.", "quantifier": "every sequence of commands, every number of subscribers, every order of updates, confirmations and timeouts, calls of several sessions overlapping in every way", "why_tests_cant": "Tests wait a moment before they publish; whether a confirmation belongs to the update which is waited for depends on timeouts and on which tasks of the event loop run first.", "anchors": ["src/ezmsg/core/graphserver.py: GraphServer._notify_subscriber, GraphServer._handle_client, GraphServer.api, GraphServer._handle_session_edge_request", "src/ezmsg/core/netprotocol.py: ClientInfo.sync_writer", "src/ezmsg/core/subclient.py: Subscriber._graph_connection, Subscriber.create", "src/ezmsg/core/pubclient.py: Publisher.create"]}
{"id": "C82", "title": "Every stream has a topic of its own", "statement": "Setting up components that have not been used before gives every component and stream the address made of the root name and the names on the way to it. No two streams share an address, so messages of one stream never reach the subscribers of another; no two components do. Every relay endpoint of a collection gets a unit of its own with topics of its own. Components that have been set up cannot be set up again, nor can one component be used under two names.", "quantifier": "every tree of components and streams of any depth, every root name, all names, every history of earlier setups", "why_tests_cant": "Tests use a handful of components with simple names; that addresses never coincide has to be shown for all trees and names.", "anchors": ["src/ezmsg/core/addressable.py: Addressable", "src/ezmsg/core/component.py: Component._set_location", "src/ezmsg/core/backend.py: ExecutionContext.setup, crawl_components", "src/ezmsg/core/relay.py: _CollectionRelayUnit"]}
{"id": "C83", "title": "A process answers control requests without waiting for itself", "statement": "Requests which the graph server passes to a process (ping, statistics, patches of settings) are answered, and settings received by units are reported, without any timeout, whatever order they come in; a patch waiting to be published does not hold up other requests.", "quantifier": "every number of buffers, every sequence of requests, settings messages, pauses and resumes, every interleaving of the connection's reader, the unit's subscriber, the server and timeouts", "why_tests_cant": "A test patches a setting or two of a quick unit; the process waits for itself only when patches come faster than the unit finishes with them, or while the graph is paused.", "anchors": ["src/ezmsg/core/processclient.py: ProcessControlClient._io_loop, ProcessControlClient._write_payload", "src/ezmsg/core/backendprocess.py: DefaultBackendProcess.process.process_request_handler, report_settings_update_cb, handle_subscriber"]}
{"id": "C84", "title": "Structured settings show every setting as plain data", "statement": "The structured value which is reported for a settings object consists of plain data (None, bool, int, float, str, lists, dictionaries with strings as keys); its entries are the fields in order, and every scalar in the settings is found in it under the same names and positions; plain data are left as they are.", "quantifier": "every settings object: every nesting of dataclasses, dictionaries, lists, tuples, sets, enumerations and other objects", "why_tests_cant": "A test looks at the structured value of one flat settings class; keys that coincide as text, objects that cannot be copied and subclasses of int or str come up in users' settings.", "anchors": ["src/ezmsg/core/settingsmeta.py: _sanitize, settings_structured_value, settings_repr_value"]}
{"id": "C85", "title": "The schema of settings describes their fields", "statement": "The schema of a settings class has one entry for every field, in order; exactly the fields without default are required; the defaults are what the structured value shows for settings made without arguments; bounds and choices are those declared; and the widget fits the type.", "quantifier": "every list of fields with every combination of annotations, defaults, factories and metadata", "why_tests_cant": "A test uses a handful of fields of basic types; a widget is chosen by words in the name of the type, which go wrong only for certain names.", "anchors": ["src/ezmsg/core/settingsmeta.py: settings_schema_from_type, _widget_hint, _choices_from_annotation, _type_name"]}
{"id": "C86", "title": "Messages are equal exactly if they have the same content", "statement": "Comparing two messages with == gives an answer, which is True exactly if they have the same class, data, dimensions, key, attributes and axes; a message is equal to itself.", "quantifier": "every pair of messages with every data, attributes, axes and identities of the objects in them", "why_tests_cant": "Tests compare messages to see whether code under test is right; whether the comparison itself looks at everything does not show when it says True.", "anchors": ["src/ezmsg/util/messages/axisarray.py: AxisBase, LinearAxis, ArrayWithNamedDims.__eq__, CoordinateAxis, AxisArray.__eq__"]}
{"id": "C87", "title": "A linear axis finds the position of each of its values", "statement": "LinearAxis.index of LinearAxis.value of a position is that position, for every way of rounding that leaves whole numbers alone; and the value at the position that is found for a number is at most half a step away from it.", "quantifier": "every gain other than zero (positive in the second part), every offset, position and number", "why_tests_cant": "A test converts a few positions of one axis.", "anchors": ["src/ezmsg/util/messages/axisarray.py: LinearAxis.value, LinearAxis.index"]}
{"id": "C88", "title": "A task does what its function says", "statement": "Running a task runs the code of its function; what it yields is broadcast in order on the streams it names, if they have publishers; it ends as the function ends: Complete and NormalTermination are passed on, NormalTermination ends the system, other exceptions are noted; and a task of a subscription gets message after message until it raises.", "quantifier": "every function: plain, coroutine, generator or asynchronous generator, with every number of parameters, with and without timeit, every message, and every failure of a broadcast", "why_tests_cant": "Tests use asynchronous functions with one or two parameters; the decorator timeit is exported and not used in any test.", "anchors": ["src/ezmsg/core/backendprocess.py: DefaultBackendProcess.task_wrapper, handle_subscriber", "src/ezmsg/core/unit.py: timeit"]}
{"id": "C89", "title": "Units start with the settings they are given and a complete state of their own", "statement": "A unit has the settings it is given, or settings made of the arguments it is given, or the default settings; arguments that do not fit are refused. When setup returns, initialize has been run with these settings and with new objects for all fields that have factories, and every field of the state has a value; a unit without settings or with an incomplete state is refused, and no unit is set up twice. Units do not share the initial values of their states.", "quantifier": "every settings class and state class, all arguments, every initialize", "why_tests_cant": "A test makes units of a few classes with matching arguments.", "anchors": ["src/ezmsg/core/component.py: Component.__init__, _instantiate_state, _check_state", "src/ezmsg/core/unit.py: Unit.setup", "src/ezmsg/core/settings.py: SettingsMeta", "src/ezmsg/core/state.py: StateMeta"]}
{"id": "C90", "title": "Leaving a graph context undoes what was done with it", "statement": "When a context has been left, every client made with it is closed, its session is closed and owns no connections, and a server that it started has stopped; revert closes the clients and removes the connections and keeps the session. Leaving comes to its end.", "quantifier": "every sequence of making, closing and dropping clients, connecting, disconnecting, failing tasks and lost sessions, also while the context is being left", "why_tests_cant": "Tests leave contexts in which every client works and nothing is made while the context is left.", "anchors": ["src/ezmsg/core/graphcontext.py: GraphContext.__aenter__, __aexit__, revert, _close_session, _shutdown_servers"]}
{"id": "C91", "title": "A snapshot shows the graph as it is", "statement": "A snapshot of the graph server shows exactly the connections that were made and not removed, each with exactly its owners, exactly the sessions and processes that are connected, and with each its connections and metadata, or its units; sorted.", "quantifier": "every history of requests to the graph server, every order of topics, ids and units", "why_tests_cant": "Tests take snapshots of small graphs made by one session.", "anchors": ["src/ezmsg/core/graphserver.py: GraphServer._snapshot", "src/ezmsg/core/graphcontext.py: GraphContext.snapshot"]}
{"id": "C92", "title": "Settings updates reach the component they name", "statement": "settings_input_topic finds the settings input of a component exactly if the component is registered with one, and never finds two. A session whose metadata are refused is told exactly the components that other sessions have registered. update_settings broadcasts the value once, on that topic and no other, and closes the publisher it made; the component's subscriber receives the value. It returns exactly if there is a topic and making, using and closing the publisher succeed.", "quantifier": "every history of requests to the graph server, every component, every way in which making the publisher, broadcasting and closing can end; every interleaving of the publisher, its channel and the subscriber", "why_tests_cant": "Tests update settings of one component in one session and sleep before they look.", "anchors": ["src/ezmsg/core/graphcontext.py: GraphContext.settings_input_topic, update_settings, register_metadata"]}
{"id": "C93", "title": "profiling_snapshot_all has an entry for each process that answers", "statement": "The result has an entry for each connected process that answers in time, and the entry of a process was sent by that process.", "quantifier": "every history of requests to the graph server before and between the requests to the processes, every answer of the processes", "why_tests_cant": "Tests profile one process whose units do not move.", "anchors": ["src/ezmsg/core/graphcontext.py: GraphContext.profiling_snapshot_all", "src/ezmsg/core/graphserver.py: GraphServer._process_owner"]}
{"id": "C94", "title": "A process answers every request routed to it, in order", "statement": "A process answers each request it receives once, in the order of arrival, with a response that carries the id of the request: built-in operations by themselves, all others by the handler that the user has set; an exception of the handler, a missing handler and a wrong result are reported in the response.", "quantifier": "every sequence of commands and payloads from the graph server, every handler and everything it can return or raise, every state of the profiling registry", "why_tests_cant": "Tests send a few requests with handlers that return; they do not send requests after one whose answer failed.", "anchors": ["src/ezmsg/core/processclient.py: ProcessControlClient._io_loop, _handle_route_request, _write_payload"]}
{"id": "C95", "title": "Trace samples are sent once, in order", "statement": "Every sample recorded while tracing is on is sent to the graph server by the process' push task, once and in the order of recording, unless somebody polls it.", "quantifier": "every interleaving of recording, changes of the trace, polls, expiry, the push task's steps, other users of the write lock, failures of the connection and closing", "why_tests_cant": "Tests wait until some samples arrive; what is lost at the end of a trace or while the write lock is held needs a schedule.", "anchors": ["src/ezmsg/core/processclient.py: ProcessControlClient._trace_push_loop, _ensure_trace_push_task, _cancel_trace_push_task", "src/ezmsg/core/profiling.py: ProfileRegistry.set_trace_control, trace_batch, trace_enabled"]}
{"id": "C96", "title": "Programs use the graph server that runs, or start one", "statement": "When a program asks for the graph server, it is connected to the one that listens at its address, or starts one there if it may, or is refused; no address has two servers, a program that starts one can rely on it listening, every such call ends, and the processes of a run use the server of the run.", "quantifier": "every number of programs, every address, auto_start and environment of each, every interleaving of their connect, bind and listen calls with each other and with other programs' sockets", "why_tests_cant": "Tests start one server at a time; the race of two programs for one address, and a server that goes away between two processes' connections, need a schedule.", "anchors": ["src/ezmsg/core/graphserver.py: GraphService.ensure, create_server, GraphServer.start, run, _amain", "src/ezmsg/core/netprotocol.py: create_socket", "src/ezmsg/core/graphcontext.py: GraphContext.graph_address, _ensure_servers"]}
{"id": "C97", "title": "Stopping the graph server ends and closes everything", "statement": "After a call of stop the graph server comes to its end by itself, whatever its clients do, and then every connection is closed and every lease of a shared-memory segment is released.", "quantifier": "every number of connections in every phase of their commands, every interleaving of their requests and departures with the steps of the shutdown, both meanings of Server.wait_closed", "why_tests_cant": "Tests stop servers whose clients are idle or gone; what happens to a request that is half sent, a client that has just connected, or a segment that is made during the shutdown needs a schedule.", "anchors": ["src/ezmsg/core/graphserver.py: GraphServer.stop, run, _amain, _shutdown_async, api, _handle_client, _handle_session, _handle_process, _handle_event_subscriber", "src/ezmsg/core/shm.py: SHMInfo.lease"]}
{"id": "C98", "title": "One client does not hold up the commands of the others", "statement": "A command given to the graph server is carried out when those given before it have been, and no client can keep the others' commands from being carried out.", "quantifier": "every number of connections and every interleaving of their commands, payloads, requests and departures", "why_tests_cant": "Tests use clients that send complete commands; a client that stops in the middle of one is not among them.", "anchors": ["src/ezmsg/core/graphserver.py: GraphServer.api (the part under _command_lock), _handle_session, _handle_process"]}
{"id": "C99", "title": "An interrupt shuts a run down, a second one ends it by force", "statement": "After an interrupt a blocking run comes to its end when its processes have come to theirs; after a further one it comes to its end whatever they do. When it has ended, no process that it started is left, its graph context is closed and the thread of its event loop is stopped. The program ends by SIGINT only after an interrupt, and then if a second one was needed or something did not end well.", "quantifier": "every number of processes, every moment at which the main process or another one is interrupted, fails or dies, every number of interrupts, and every interleaving of these with the steps of the processes", "why_tests_cant": "Tests send one or two signals to a program that runs; interrupts during the start, at the stop barrier or during the cleanup, and interrupts after a process has died, need exact timing.", "anchors": ["src/ezmsg/core/backend.py: GraphRunner._start_processes, _join_spawned_processes, _run_main_process, _shutdown_was_unclean, _exit_with_sigint, _cleanup", "src/ezmsg/core/backendprocess.py: DefaultBackendProcess.process, BackendProcess.run, ShutdownSummary.unclean, new_threaded_event_loop"]}
{"id": "C100", "title": "Both sides of a connection understand each other", "statement": "Every call to the graph server returns what the server decided about exactly this call, or raises if it was not carried out; every command of a session gets its own answer; a subscriber is told exactly the lists of publishers the server sent, the first before it is ready; processes, channels, publishers and subscriptions read exactly the frames that were written to them, and of a stream that breaks off exactly the complete ones; a channel and its publisher learn each other's data. Nothing is left unread.", "quantifier": "every call and every sequence of commands, frames and updates with any arguments, any decisions of the server, and every order in which the two sides work and bytes arrive", "why_tests_cant": "Tests run over the loopback interface, where whole writes arrive at once; a byte too many or too few that is read only shows up in a later request, and only for some arguments.", "anchors": ["src/ezmsg/core/graphserver.py: GraphServer.api, _handle_session, _handle_process, _notify_subscriber, _stream_sender, GraphService", "src/ezmsg/core/graphcontext.py: _open_session, _session_io_loop, _subscribe_pickled_stream", "src/ezmsg/core/processclient.py: connect, _write_payload, _io_loop", "src/ezmsg/core/pubclient.py: Publisher.create, _channel_connect, _handle_channel, broadcast", "src/ezmsg/core/subclient.py: Subscriber.create, _graph_connection", "src/ezmsg/core/messagechannel.py: Channel.create, _publisher_connection, _acknowledge", "src/ezmsg/core/netprotocol.py: Command"]}
{"id": "C101", "title": "A closed subscriber ends", "statement": "Once a subscriber was closed, or lost the graph server, its task ends: it follows no further updates, it needs only finitely many further steps of its own, one of which is always possible, and at the end it is a client of no channel, the channels it alone used are out of the registry, and its connection to the graph server is closed; so wait_closed returns.", "quantifier": "every sequence of updates before, every moment at which the subscriber is closed or loses the server, any other clients of its channels, and every order in which the tasks of the subscriber and of its channels run", "why_tests_cant": "A test closes a subscriber that is idle; it would have to close one at the moment at which it removes a channel, or a publisher moves to a larger segment.", "anchors": ["src/ezmsg/core/subclient.py: Subscriber.close, wait_closed, _graph_connection", "src/ezmsg/core/channelmanager.py: ChannelManager.unregister", "src/ezmsg/core/messagechannel.py: Channel.close, wait_closed, _publisher_connection", "src/ezmsg/core/shm.py: SHMContext.close, wait_closed"]}
{"id": "C102", "title": "A closed publisher ends and lets go of its shared memory", "statement": "Once a publisher was closed, its tasks end: those of its connection to the graph server, of its server for channels and of each channel; it leaves its own channel, and its shared memory segment is detached. This needs only finitely many further steps, one of which is always possible. wait_closed returns only when all of them have ended, and then it returns unless a channel's connection had broken off in the middle of an acknowledgement.", "quantifier": "every history of channels that connect, disconnect or break off, of growing segments and of subscribers of the same process, every moment at which the publisher is closed, every order in which the tasks run afterwards, and both behaviours of Server.wait_closed (before and since Python 3.12)", "why_tests_cant": "A test closes an idle publisher; it would have to close one while a channel is connecting or while a broadcast waits for a larger segment.", "anchors": ["src/ezmsg/core/pubclient.py: Publisher.close, wait_closed, _serve_channels, _channel_connect, _handle_channel, broadcast", "src/ezmsg/core/channelmanager.py: ChannelManager.unregister", "src/ezmsg/core/shm.py: SHMContext.close, wait_closed"]}
{"id": "C103", "title": "The threads of a process: jobs run in order, and a request to end is noticed", "statement": "What is run in the executor of a process starts in the order in which it was submitted and waits only while as many jobs are running as there may be threads. So monitor_termination, which is such a job, runs, and when the termination event is set it cancels the tasks of the process. active_count is the number of jobs submitted that are neither done nor cancelled.", "quantifier": "every number of threads, every sequence of jobs submitted, and every order in which threads take jobs, jobs end or are cancelled, callbacks run and the termination event is set", "why_tests_cant": "A test has a few threads; the executor has up to 32, so that the case in which all of them are taken is not met.", "anchors": ["src/ezmsg/core/backendprocess.py: _DaemonThreadPoolExecutor, DefaultBackendProcess.process, monitor_termination"]}
{"id": "C104", "title": "Closing the task thread leaves no task behind unreported", "statement": "Leaving new_threaded_event_loop takes a bounded number of steps. All tasks that are alive are cancelled; cancelled_tasks is their number, pending_tasks the number of those that had not ended when the wait for them was over, suppressed_errors the number of errors reported meanwhile. If the summary is clean, no task is left unfinished when the loop is closed.", "quantifier": "every set of tasks, every moment at which they end, fail, start others or keep the thread busy, every moment of an interrupt, with and without EZMSG_STRICT_SHUTDOWN", "why_tests_cant": "Depends on what the tasks do between being cancelled and the end of the loop.", "anchors": ["src/ezmsg/core/backendprocess.py: ShutdownSummary, new_threaded_event_loop, run_loop", "src/ezmsg/core/backend.py: _shutdown_was_unclean"]}
{"id": "C105", "title": "Receiving synchronously with a timeout loses no message", "statement": "SyncSubscriber.recv returns the messages that came, in order, none twice. Every call returns one message or raises TimeoutError. A call that raises leaves the messages to later calls, and a later call is not held up by it. Every call ends.", "quantifier": "every sequence of messages, calls and timeouts, and every interleaving of the calling thread with the loop: task creation, cancellation, taking a message, passing the result on", "why_tests_cant": "A message is lost only if it is taken between the end of the timeout and the moment at which the loop cancels the task; a test would have to hit that moment.", "anchors": ["src/ezmsg/core/sync.py: _future_result, SyncSubscriber.recv", "src/ezmsg/core/subclient.py: Subscriber.recv, recv_zero_copy"]}
{"id": "C106", "title": "Every component runs with the settings its collections give it, and collections are wired by them", "statement": "After setup a component has the settings that the nearest collection above it applies in configure (which sees the settings of that collection itself), or those it was made with. configure is called once for every collection. network and process_components of a collection see the settings the collection runs with.", "quantifier": "every tree of components, every configure, network and process_components that depend on the settings of their collection, every settings given at first", "why_tests_cant": "Tests use one or two levels and collections whose network does not depend on settings; the order of the search and the order of the three phases matter only beyond that.", "anchors": ["src/ezmsg/core/backend.py: crawl_components, ExecutionContext.setup, collect_processes", "src/ezmsg/core/component.py: Component.apply_settings", "src/ezmsg/core/collection.py: Collection.configure, network, process_components"]}
{"id": "C107", "title": "ArrayChunker publishes the chunks of every array it is given", "statement": "Every array given to ArrayChunker (settings at first, or a message on INPUT_SETTINGS) is published chunk by chunk, from its first chunk on, in order, until new settings come. Put together the messages are the array. The unit ends publishing only when there is nothing left to publish.", "quantifier": "every array, chunk length and axis, every sequence of settings messages and turns of the publishing loop", "why_tests_cant": "Tests give one array and count the messages; settings that come at a later moment, and in particular after the last chunk, are not tried.", "anchors": ["src/ezmsg/util/messages/chunker.py: array_chunker, ArrayChunker.initialize, construct_generator, on_settings, send_chunk"]}
{"id": "C108", "title": "The metadata of a system describes its components", "statement": "The metadata that a runner registers has exactly one entry for every component of the system, under its address, listed in the order of addresses. The entry of a unit lists its streams with class, address, message type and the parameters of the class, its tasks with the addresses they subscribe to and publish on, its main function and its threads. The entry of a collection lists its topics and its relays (an InputStream or OutputStream of a collection counts as a topic) and the addresses of its components, which have entries themselves. Dynamic settings are enabled exactly for components with an InputStream called INPUT_SETTINGS.", "quantifier": "every tree of components whose addresses differ, every choice of streams, tasks and parameters", "why_tests_cant": "Tests compare the metadata of a few small systems; the chain of class tests, the search and the sorting have to agree for all combinations of classes and all trees.", "anchors": ["src/ezmsg/core/backend.py: GraphRunner._component_metadata, crawl_components", "src/ezmsg/core/graphmeta.py", "src/ezmsg/core/stream.py"]}
{"id": "C109", "title": "The coordinates of every dimension can be had, and go with the array into xarray", "statement": "ax gives for every dimension, by name or by number, its axis, its position and its size, and its values are the coordinates of the positions. to_xr_dataarray passes on data, dimensions and attributes, the values of every declared axis of a dimension, and every coordinate axis that does not belong to a dimension.", "quantifier": "every AxisArray that its constructor accepts, with any mixture of linear, coordinate and undeclared axes", "why_tests_cant": "Tests convert an array with linear axes, if at all (xarray is optional); the combination with a coordinate axis is not tried.", "anchors": ["src/ezmsg/util/messages/axisarray.py: AxisArray.ax, AxisArray.AxisInfo, get_axis, get_axis_name, to_xr_dataarray"]}
{"id": "C110", "title": "A publish call that times out has no effect, and one that returns has published its message", "statement": "SyncPublisher.publish with a timeout: if it returns, the message is published, in the order of the calls; if it raises TimeoutError, the message is not published, and the other messages are received, leased and overwritten as if the call had not been made. A call that waits can time out at once, and the next call is then taken.", "quantifier": "every execution of a system of publishers, channels and subscribers in which threads give up publish calls at any time and the cancellation takes effect at any later time", "why_tests_cant": "The timing decides: tests time out calls that wait for a paused publisher or a full buffer; a connection that makes drain wait needs a slow reader and large messages.", "anchors": ["src/ezmsg/core/sync.py: _future_result, SyncPublisher.publish", "src/ezmsg/core/pubclient.py: Publisher.broadcast"]}
{"id": "C111", "title": "Subscribers that use messages do not lose later ones when shared memory grows", "statement": "When a publisher replaces its shared memory by a larger segment, a subscriber in another process still sees the content of the message it is using, gets every further message in order, can leave the message it was using, and the process gives the old segment back. The subscribers get and leave all messages on their way in finitely many steps, and the publisher can then publish again.", "quantifier": "every sequence of messages of any size with and without arrays, and every way in which any number of subscribers of a process enter and leave blocks and keep or forget messages", "why_tests_cant": "Needs a message with arrays in use in another process at the moment a larger message is published; tests that grow the memory copy the messages or use a single process.", "anchors": ["src/ezmsg/core/messagechannel.py: Channel._publisher_connection, get, _release_backpressure", "src/ezmsg/core/shm.py: SHMContext._graph_connection, wait_closed", "src/ezmsg/core/messagecache.py: MessageCache", "src/ezmsg/core/messagemarshal.py: MessageMarshal.obj_from_mem"]}
{"id": "C112", "title": "A subscriber follows every routing update and leaves when it is closed", "statement": "A subscriber confirms every update of its publishers and is afterwards a client of exactly the channels of these publishers, whatever messages are in use; and when it is closed, its connection to the graph server is closed. It takes every update, and can be closed at any time.", "quantifier": "every sequence of updates to any number of subscribers of a process that share channels, in every order of handling the publishers, with any messages in use at any time", "why_tests_cant": "Needs a disconnect while a message with arrays from another process is in use; the failure is silent, only later connections do not take effect.", "anchors": ["src/ezmsg/core/subclient.py: Subscriber._graph_connection", "src/ezmsg/core/channelmanager.py: ChannelManager.register, unregister", "src/ezmsg/core/messagechannel.py: Channel.close, wait_closed", "src/ezmsg/core/shm.py: SHMContext.wait_closed"]}
{"id": "C113", "title": "Calls through a synchronous context end, and so does its thread", "statement": "Every call made through a SyncContext ends once, with a result or an exception, also if the context is shut down meanwhile; a call through a context that was not entered or is closed raises at once. Entering and shutdown come to their end, and afterwards, also if they raised, no thread is left running. A context that was entered takes calls until it is shut down, and they can come to their end.", "quantifier": "every order of entering, calls from any number of threads, and shutdown, with every outcome of opening and closing the graph context and any behaviour of the calls", "why_tests_cant": "A thread left behind or a caller that waits for ever shows only when the interpreter does not exit; the races need calls during the shutdown itself.", "anchors": ["src/ezmsg/core/sync.py: SyncContext.__enter__, shutdown, _finalize_shutdown, _ensure_started, _future_result", "src/ezmsg/core/backendprocess.py: new_threaded_event_loop, run_loop"]}
{"id": "C114", "title": "Messages that are passed on keep their content", "statement": "A unit that passes its input on to its output passes on every message with its content: whatever the process of a receiver, and whenever it looks at the message while it handles it, message number j of the output is message number j of the input. Every message is passed on after finitely many steps, and the publisher of the input can then publish again.", "quantifier": "every order of publishing, receiving, passing on and looking, any number of messages, with arrays or without, any numbers of buffers, units that copy or not and that publish at once or later", "why_tests_cant": "Whether a buffer is used again while a receiver still looks at the message depends on the speeds of three parties; a test with few or small messages, or in one process, never reuses the buffer.", "anchors": ["src/ezmsg/core/relay.py: _CollectionRelayUnit", "src/ezmsg/util/debuglog.py: DebugLog.log", "src/ezmsg/util/messagegate.py: MessageGate.on_input", "src/ezmsg/util/messagelogger.py: MessageLogger.on_message", "src/ezmsg/util/messagequeue.py: MessageQueue", "src/ezmsg/core/messagecache.py: MessageCache.put_from_mem"]}
{"id": "C115", "title": "Attaching to shared memory leaves the record of resources alone", "statement": "What Python removes when a process ends are exactly the segments of shared memory, locks and so on which the process has created and not removed itself; segments to which it has only attached are left. Attaching to a segment, whether it succeeds or raises, does not make other code fail that creates such things. Until the process ends, every thread that is not about to attach can attach to a segment, and can create such things and remove what the process created; and the process can end at any time.", "quantifier": "every order of attaching to segments, by any number of threads, with success or not, of creating and removing segments and semaphores by other code of the process, and of its end", "why_tests_cant": "The record is looked at when the process ends, by another process; the interference needs a failed attachment, or threads that meet within a few instructions.", "anchors": ["src/ezmsg/core/shm.py: _untracked_shm, _ignore_shm, SHMContext.__init__, SHMInfo.create"]}
{"id": "C116", "title": "A block that receives synchronously without a copy has its message, and only while it runs", "statement": "While the block of `with subscriber.recv_zero_copy(timeout)` runs, the buffer of its message is held; once the block has been left, it has been given back, exactly once, also if a timeout came first. Blocks receive the messages in the order in which they came, and no message is lost. A thread is never stuck: entering returns if there is a message, and can time out; leaving returns once the loop has run, and can time out.", "quantifier": "every sequence of blocks of a thread, with and without timeouts on entering and leaving, against every order in which messages come and the loop does what it was asked", "why_tests_cant": "Whether a timeout strikes before, while or after the loop takes a message is a matter of microseconds between two threads.", "anchors": ["src/ezmsg/core/sync.py: _SyncZeroCopy, _future_result, SyncSubscriber.recv_zero_copy", "src/ezmsg/core/subclient.py: Subscriber.recv_zero_copy"]}
{"id": "C117", "title": "A load test waits for the messages sent to its sink, and its results describe them", "statement": "In each configuration of `ezmsg perf`, for any number of clients, every source has exactly one way to the sink, and the sink ends the test with the last of the messages of all sources. The results are those of the messages received: their number, the mean and median latency, the mean rate and the data rate; the messages reported as skipped or dropped are those missing. There are results for every set of messages received.", "quantifier": "every configuration and number of clients and messages; every sequence of messages, from any sources, with any times", "why_tests_cant": "A test compares numbers of one run on one machine; that the sums, medians and counts of missing messages are right for every sequence, also when messages are lost, is not visible in them.", "anchors": ["src/ezmsg/util/perf/impl.py: LoadTestReceiver.receive, LoadTestSink.receive, fanout, fanin, relay, calculate_metrics"]}
{"id": "C118", "title": "Decorating a method or task for profiling leaves it as it is", "statement": "A method decorated with `profile_method` and a task decorated with `profile_subpub` return, yield and raise the same as without decoration, in the same order. With log level `DEBUG` the log, which begins with its header, has a line for each message: the time of its oldest or newest sample, and how long the method or task took for it, without the time the consumer holds earlier messages. With another level nothing is logged.", "quantifier": "every method and task, every sequence of messages it yields (arrays with any dimensions and axes, or anything else), every level, every state of the log file", "why_tests_cant": "Tests decorate one method that returns a well-formed array; which messages make the decorator itself raise, and that nothing else is changed for any of the others, they do not show.", "anchors": ["src/ezmsg/util/profiler.py: _setup_logger, _process_obj, profile_method, profile_subpub"]}
{"id": "C119", "title": "The command `start` reports its own server, and `shutdown` ends it", "statement": "`ezmsg start` says that servers were forked only when the server of the child it forked runs at the address, and gets to say so; the server then runs until it is shut down or interrupted. `shutdown` says that it told a server exactly if one runs there, that server stops and does not come back. With a dashboard the child gets the same options; where the dashboard is follows from the given port, the environment and the graph server's address.", "quantifier": "every interleaving of `start`, its child, other programs at the address and calls of `shutdown`; every option", "why_tests_cant": "Tests start one server at a free address; what `start` does when the child fails, or another program is faster, depends on the interleaving.", "anchors": ["src/ezmsg/core/commands/start.py: handle_start", "src/ezmsg/core/commands/serve.py: handle_serve", "src/ezmsg/core/commands/shutdown.py: handle_shutdown", "src/ezmsg/core/commands/dashboard.py: dashboard_address, add_dashboard_argument"]}
{"id": "C120", "title": "Streams and components have the names of their fields, and every instance has its own", "statement": "A stream of a unit or collection and a component of a collection has the name of the field it was assigned to, also in derived classes and in instances; an object assigned to two fields is refused. A class has under a name what Python finds as its attribute. Every instance has its own streams and components, shared with no other instance. Components that are run get the names they are given, and can be run once.", "quantifier": "every program of class statements (any bases, any fields), every sequence of instances", "why_tests_cant": "Tests define a few classes; which programs are refused, and what is inherited from which base, is a statement about all of them.", "anchors": ["src/ezmsg/core/addressable.py: Addressable._set_name", "src/ezmsg/core/component.py: ComponentMeta.__init__, Component.__init__", "src/ezmsg/core/collection.py: CollectionMeta.__init__, Collection.__init__", "src/ezmsg/core/backend.py: ExecutionContext.setup"]}
{"id": "C121", "title": "A comparison of two versions says the median of balanced pairs", "statement": "`perf ab` measures both versions once in each of the pairs asked for, half of them beginning with A, and says for every case of the first run the median times, the median and mean of how much slower B is, and in how many pairs B is faster. B is called an improvement if it is faster in more than half of the pairs and a regression if it is slower in more than half. Fewer than half of the pairs cannot move a median out of the range of the others, nor fewer outliers than half of the buckets a median of means. Exchanging the versions inverts the result. Options for the environment are KEY=VALUE; the last one counts, those for one version before those for both.", "quantifier": "all numbers of pairs, shuffles and measured times, all samples and numbers of buckets, all options", "why_tests_cant": "Tests summarize two pairs; what outliers, shuffles or exchanged versions change is a statement about all measurements.", "anchors": ["src/ezmsg/util/perf/ab.py: build_pair_order, summarize_ab_results, _median, parse_env_assignments, perf_ab", "src/ezmsg/util/perf/util.py: median_of_means"]}
{"id": "C122", "title": "A steady environment lasts for the measurement only", "statement": "Within `stable_perf` the garbage collector is off, the process may use two of its processors (neighbours in the middle, not the first if there are at least four), has the priority that is tried first and permitted, and the variables for threads are \"1\" unless they were set. The measured code runs once and how it ends is how the block ends. Afterwards, however it ended, the garbage collector, the processors, the timer and the priority are as before. If the processors cannot be set, that is raised, the measured code does not run and the rest is restored.", "quantifier": "all operating systems, permissions, options and states of the process, all measured code", "why_tests_cant": "Tests run on one host as one user and do not look at the process afterwards; which permissions keep the priority from being restored is a question about all hosts.", "anchors": ["src/ezmsg/util/perf/util.py: stable_perf, _process_priority, _cpu_affinity, _mac_caffeinate, _win_timer_resolution, gc_pause, _set_env_threads"]}
{"id": "C123", "title": "A benchmark reports the median of the means of every combination asked for", "statement": "`perf benchmark` runs every combination of message size, number of clients, configuration and way to communicate as often as asked for in each repetition, in a shuffled order, and writes every result; if it is quit, the log is the beginning of what it would have been. The report says of every combination the median over the repetitions of the mean of its results, and nothing of others. A comparison counts every metric of every combination both reports have once: a rate above the noise band and a latency below it is an improvement, the other way round a regression; the largest are listed first. Exchanging the reports exchanges improvements and regressions. Impossible arguments are refused with `ValueError` before anything runs.", "quantifier": "all arguments, shuffles, measured values and moments of quitting, all files of several repetitions, all pairs of reports", "why_tests_cant": "Tests run a few combinations once; which results a median of means includes, or what quitting leaves out, is a statement about all logs.", "anchors": ["src/ezmsg/util/perf/run.py: benchmark", "src/ezmsg/util/perf/analysis.py: load_perf, _metric_score, _classify_metric, _collect_metric_deltas, build_report_bundle"]}
{"id": "C124", "title": "The graph server serves everybody who is connected, and answers from what was asked before", "statement": "After any history of requests, disconnections and internal steps, a request of a session or process is taken exactly when that session or process connected and has not gone; new clients are always taken; a connection ends once. The answer follows from the history: a connect is refused exactly when it would close a loop over connections made and not given up, a channel exactly when its publisher is not there, a registration of components exactly when another session holds one of them, a claim of units exactly when another process holds one, a settings report exactly when the process does not hold the unit; everything else is answered with success.", "quantifier": "all histories of steps of all clients, all interleavings of handlers, all next steps", "why_tests_cant": "Tests ask a few clients in a few states; that nobody is ever turned away or wrongly refused is a statement about all histories.", "anchors": ["src/ezmsg/core/graphserver.py: GraphServer.api, _handle_session, _handle_process, _handle_client", "src/ezmsg/core/graphserver.py: _connect_owner, _handle_process_register_request"]}
{"id": "C125", "title": "The round-trip benchmark measures what it names and reports what it measured", "statement": "perf hotpath measures exactly the combinations of interface, transport and message size asked for, each once, under names that differ, and lists them by name whatever order they were measured in. In a case every message goes to the subscriber once over the transport the case names, whatever the environment variables say. A sample is the time of exactly the messages asked for: opening, warm-up and closing are not in it; there is one exactly when nothing raises. The summary is made exactly when there are samples, messages and no sample without time, and gives number, median, mean, least, greatest, spread and times per message of these samples; with an odd number of samples the rate is the number of messages by the median time. Whatever raises, contexts are closed, the log level is restored and the server is stopped.", "quantifier": "all lists of interfaces, transports and sizes, all shuffles, all durations and all points at which something raises", "why_tests_cant": "Timings differ in every run; a wrong divisor, a timed warm-up or a wrong transport gives plausible numbers, and tests do not make each single operation fail.", "anchors": ["src/ezmsg/util/perf/hotpath.py: build_cases, HotPathCase.case_id, _publisher_transport_kwargs", "src/ezmsg/util/perf/hotpath.py: summarize_samples, _async_roundtrip, _sync_roundtrip", "src/ezmsg/util/perf/hotpath.py: run_hotpath_case, run_hotpath_suite, _quiet_ezmsg_logs", "src/ezmsg/util/perf/util.py: coef_var"]}
{"id": "C126", "title": "The page of a performance report shows the results as they are", "statement": "Whatever the names, paths and versions in a log are, a reader of the HTML report finds the elements of the report and in them exactly these texts: no text ends its element or attribute, and different texts stay different. A control offers every value once after All; a list of changes shows the first five or says that there are none; a row shows its combination and one cell per metric. Every result has one row, with the baseline and comparison of the same combination; its severity is the largest change of a metric. A cell is coloured exactly if its metric is not neutral, green for improvements, red for regressions, the stronger the larger the change. The listed differences of the environments are exactly the fields that differ.", "quantifier": "all texts, all results, baselines and comparisons, all noise bands, all environments", "why_tests_cant": "Tests use harmless names; that no text whatsoever breaks the page, and that no row gets a foreign baseline, is a statement about all of them.", "anchors": ["src/ezmsg/util/perf/analysis.py: _escape, _options, _render_delta_list, _build_rows, _color_for_comparison, render_html_report", "src/ezmsg/util/perf/envinfo.py: TestEnvironmentInfo.diff, format_env_diff"]}
{"id": "C127", "title": "Settings classes of pydantic and param are described by their fields", "statement": "settings_schema_from_type describes a dataclass by its fields, otherwise a pydantic class, otherwise a param class, and gives None exactly for everything else; the schema of a value is the one of its class. The entries are the fields in order (without the parameter called name); exactly the fields the class says are required are required; default, type, description and choices are those of the field; the lower bound is the first of ge, gt, min_length that is a number, the upper bound the first of le, lt, max_length; a parameter's bounds are shown if each is a number or None. The widget fits the type, and what a field of pydantic 2 declares is shown.", "quantifier": "all classes with any fields, attributes, defaults and bounds, whatever objects() does", "why_tests_cant": "A test would need these libraries in both generations; the repository has no test with any of them.", "anchors": ["src/ezmsg/core/settingsmeta.py: settings_schema_from_type, settings_schema_from_value, _extract_bounds, _choices_from_annotation, _widget_hint"]}
{"id": "C128", "title": "Decorators make of a method what they say, and of no other", "statement": "A method with any decorators in any order publishes to exactly the streams of its publisher decorators, in order of application, and subscribes to the stream of its subscriber decorator, with that stream's leaky and max_queue. A class takes it as a task exactly if it publishes, subscribes or is declared a task, otherwise as its main function or as a thread if it is declared so. It is refused exactly if a decorator gets a wrong kind of stream (ValueError) or if it subscribes twice (Exception). Decorating a method changes no other method.", "quantifier": "every list of decorators, every set of functions and shared lists of streams that exist already", "why_tests_cant": "Tests use two or three combinations of decorators; that a list is shared shows only when a method is decorated again elsewhere.", "anchors": ["src/ezmsg/core/unit.py: publisher, subscriber, main, timeit, thread, task, process, UnitMeta.__init__"]}
{"id": "C129", "title": "gen_to_unit makes the unit that the signature of the function describes", "statement": "Every function annotated with Generator[yield, send, return] is accepted. The settings class has its parameters as fields, with their defaults. The unit takes messages exactly if the send type is not None, at INPUT (INPUT_SIGNAL for AxisArray), and publishes exactly if the yield type is not None, at OUTPUT (OUTPUT_SIGNAL for AxisArray). After initialize the state has the generator made from the settings, and the settings. A sleep_time that the unit ignores is warned about.", "quantifier": "every signature with any parameters, defaults and types, every settings, every sleep_time", "why_tests_cant": "The tests use a few functions with ordinary parameters; which names and kinds of parameters go wrong is not visible from them.", "anchors": ["src/ezmsg/util/gen_to_unit.py: gen_to_unit, args_to_settings, args_to_state, initialize"]}
{"id": "C130", "title": "Asking a process about itself gives what that process says, or an error", "statement": "process_ping, process_stats, process_profiling_snapshot and process_profiling_trace_batch for a unit return what the first process that owns the unit says of itself (a batch of as many samples as asked for, at least one) and change no process; process_set_profiling_trace switches tracing in that process and no other. If no process owns the unit, or the process cannot be reached or is late, the four queries raise RuntimeError and process_set_profiling_trace returns a response that is not ok. decode_process_payload returns exactly the payload of a response that is ok and has one of the type expected. process_request with both kinds of payload is refused and reaches nobody; otherwise the process gets the operation and the payload given, empty bytes as no payload.", "quantifier": "every list of processes with any units, states and handlers, every unit, operation and payload", "why_tests_cant": "Tests ask one or two processes that answer; which process is asked when several own a unit, and every combination of response and expected type, are not tried.", "anchors": ["src/ezmsg/core/graphcontext.py: GraphContext.process_request, process_ping, process_stats, process_profiling_snapshot, process_set_profiling_trace, process_profiling_trace_batch, decode_process_payload", "src/ezmsg/core/graphserver.py: GraphServer._process_for_unit, _route_process_request, _handle_session_process_request"]}
