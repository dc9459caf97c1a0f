{
 "claims": [
  {
   "property": "C01",
   "status": "proved",
   "theorems": [
    "Neffos.c01_round_trip",
    "Neffos.c01_round_trip_result",
    "Neffos.c01_generated_tokens_plain",
    "Neffos.c01_native_round_trip"
   ],
   "note": "All messages, bodies and results; names under the exact condition of C02, tokens under PlainToken, which all generated tokens meet."
  },
  {
   "property": "C02",
   "status": "proved",
   "theorems": [
    "Neffos.c02_names_survive_iff",
    "Neffos.c02_conversions_are_replacements",
    "Neffos.c02_unconditional_refuted",
    "Neffos.c02_received_names_safe"
   ],
   "note": "Exact iff; the unconditional first sentence is refuted by a collision, as the statement says."
  },
  {
   "property": "C03",
   "status": "proved",
   "theorems": [
    "Neffos.c03_no_interference",
    "Neffos.c03_six_header_separators"
   ],
   "note": "Non-interference between all fields for arbitrary names, bodies and error texts."
  },
  {
   "property": "C04",
   "status": "proved",
   "theorems": [
    "Neffos.c04_classification",
    "Neffos.c04_frame_fields"
   ],
   "note": "Exact classification for all payloads and flags, and exact field decoding."
  },
  {
   "property": "C05",
   "status": "partial",
   "theorems": [
    "Neffos.c05_error_crosses_partial",
    "Neffos.c05_register",
    "Neffos.c05_package_errors",
    "Neffos.c05_empty_text_refuted"
   ],
   "note": "Holds for every error with a non-empty text; refuted for an error with the empty text, which is lost."
  },
  {
   "property": "C06",
   "status": "partial",
   "theorems": [
    "Neffos.c06_reply_partial",
    "Neffos.c06_native_refuted"
   ],
   "note": "Holds for every received non-native message with a plain token; refuted for native messages, whose answer repeats the original body."
  },
  {
   "property": "C07",
   "status": "proved",
   "theorems": [
    "Neffos.c07_is_answer_candidate",
    "Neffos.c07_generated_tokens",
    "Neffos.c07_tokens_distinct",
    "Neffos.c07_clearWait"
   ],
   "note": "Exact decision, for all tokens and both sides."
  },
  {
   "property": "C08",
   "status": "partial",
   "theorems": [
    "Neffos.c08_mark_never_recognised_refuted",
    "Neffos.c08_inserted_mark_partial"
   ],
   "note": "Refuted: the sender adds the mark to the first byte instead of inserting it, so it is never recognised. The receiving half is proved."
  },
  {
   "property": "C09",
   "status": "partial",
   "theorems": [
    "Neffos.c09_identity_recovered_partial",
    "Neffos.c09_no_token_with_identity",
    "Neffos.c09_separator_in_id_refuted"
   ],
   "note": "Recovered for identities without a separator; refuted for connection IDs that contain one."
  },
  {
   "property": "C10",
   "status": "proved",
   "theorems": [
    "Neffos.c10_exact",
    "Neffos.c10_any",
    "Neffos.c10_none",
    "Neffos.c10_fire"
   ],
   "note": "Exact for all event tables and names; the callback's result is returned."
  },
  {
   "property": "C11",
   "status": "proved",
   "theorems": [
    "Neffos.c11_last",
    "Neffos.c11_namespaces",
    "Neffos.c11_inputs",
    "Neffos.c11_order",
    "Neffos.c11_any"
   ],
   "note": "All handler lists and all iteration orders; maps are modelled on a heap, so that inputs left unchanged is a statement about shared maps."
  },
  {
   "property": "C12",
   "status": "partial",
   "theorems": [
    "Neffos.c12_system",
    "Neffos.c12_matched",
    "Neffos.c12_prefix",
    "Neffos.c12_trim",
    "Neffos.c12_distinct",
    "Neffos.c12_distinct_trim_partial",
    "Neffos.c12_refuted",
    "Neffos.c12_any",
    "Neffos.c12_struct",
    "Neffos.c12_dynamic"
   ],
   "note": "Registration exact for all controllers and matchers; distinct for EventPrefixMatcher. Refuted for EventTrimPrefixMatcher, where two methods can get the same event name, and for OnAnyEvent and OnNativeMessage methods without a matcher."
  },
  {
   "property": "C13",
   "status": "proved",
   "theorems": [
    "Neffos.c13_write",
    "Neffos.c13_emit_iff",
    "Neffos.c13_room_emit_iff",
    "Neffos.c13_ask",
    "Neffos.c13_ns_ask",
    "Neffos.c13_room_emit"
   ],
   "note": "Exact for Write, Emit, EmitBinary, Room.Emit and Ask in every state; a failed or silent socket write is an oracle."
  },
  {
   "property": "C14",
   "status": "partial",
   "theorems": [
    "Neffos.c14_only",
    "Neffos.c14_native_only_partial",
    "Neffos.c14_native_only_refuted",
    "Neffos.c14_mixed"
   ],
   "note": "Exact while the empty namespace is connected; refuted after Disconnect of the empty namespace on a native-only connection, where the next payload dereferences nil."
  },
  {
   "property": "C15",
   "status": "partial",
   "theorems": [
    "Neffos.c15_both_partial",
    "Neffos.c15_refuted_empty_error",
    "Neffos.c15_refuted_reply",
    "Neffos.c15_incoming",
    "Neffos.c15_call",
    "Neffos.c15_answer",
    "Neffos.c15_accepted"
   ],
   "note": "Both sides over the wire for all runs with one outstanding request (c15_both_partial) under: callbacks send no namespace/room events, the server refuses with a non-empty error that is no Reply, names do not contain the escape text, requests are not made from the reader's own callbacks. Refuted without the second: c15_refuted_empty_error, c15_refuted_reply (exactly when: C122). One side alone exactly for all states and callbacks that leave the connection open; declared and accepted is an invariant of all reachable states."
  },
  {
   "property": "C16",
   "status": "partial",
   "theorems": [
    "Neffos.c16_agree_partial",
    "Neffos.c16_refuted_local_veto",
    "Neffos.c16_refuted_reply",
    "Neffos.c16_refuted_empty_error",
    "Neffos.c16_refuted_stale",
    "Neffos.c16_refuted_timeout",
    "Neffos.c16_refuted_name"
   ],
   "note": "Refuted in general: local veto after the remote accepted, veto by Reply, veto with empty text, stale NSConn, request whose context is done, room named like the escape text, two concurrent Connects of one namespace (c78_clash_refuted). Proved (c16_agree_partial) for every history of connect, disconnect, join, leave, emit, closes and deliveries with one outstanding request outside these cases, and in C78 for any number of outstanding requests that do not clash."
  },
  {
   "property": "C17",
   "status": "partial",
   "theorems": [
    "Neffos.c17_both_partial",
    "Neffos.c17_incoming",
    "Neffos.c17_not_connected",
    "Neffos.c17_unwanted",
    "Neffos.c17_call_again",
    "Neffos.c17_call",
    "Neffos.c17_answer",
    "Neffos.c17_accepted",
    "Neffos.c17_remote_partial",
    "Neffos.c17_refuted"
   ],
   "note": "Exact effects of the call, of the answer and of incoming requests; accepted locally is an invariant; both sides over the wire under the assumptions of C16 (c17_both_partial). Refuted: a JoinRoom made while the reader is held in a handler takes the next unrelated message for the answer."
  },
  {
   "property": "C18",
   "status": "partial",
   "theorems": [
    "Neffos.c18_both_partial",
    "Neffos.c18_refuted_reply",
    "Neffos.c18_not_joined",
    "Neffos.c18_call",
    "Neffos.c18_answer",
    "Neffos.c18_incoming_server",
    "Neffos.c18_incoming_client"
   ],
   "note": "Exact effects of the call, of the answer and of incoming requests on both sides; both sides over the wire under the assumptions of C16 (c18_both_partial). Refuted: a refusal by Reply makes Leave return nil and the client leave while the server keeps it."
  },
  {
   "property": "C19",
   "status": "partial",
   "theorems": [
    "Neffos.c19_both_partial",
    "Neffos.c19_refuted_reply",
    "Neffos.c19_not_connected",
    "Neffos.c19_call",
    "Neffos.c19_answer",
    "Neffos.c19_incoming_server",
    "Neffos.c19_incoming_client",
    "Neffos.c19_incoming_not_connected"
   ],
   "note": "Exact effects of the call, of the answer and of incoming requests on both sides; both sides over the wire under the assumptions of C16 (c19_both_partial). Refuted: a refusal by Reply makes Disconnect return nil and the client disconnect while the server stays connected."
  },
  {
   "property": "C20",
   "status": "partial",
   "theorems": [
    "Neffos.c20_declared",
    "Neffos.c20_once",
    "Neffos.c20_accepted",
    "Neffos.c20_rooms_partial",
    "Neffos.c20_refuted",
    "Neffos.c20_close_refuted"
   ],
   "note": "Proved for all histories: connected namespaces are declared, each held once, each room once, each NSConn of one namespace. Rooms only of connected namespaces holds for histories of incoming payloads and writes whose callbacks do not close (c20_rooms_partial). Refuted in general: a JoinRoom answered after a disconnect, and a callback that closes on join, leave a room in a namespace that is not connected."
  },
  {
   "property": "C21",
   "status": "partial",
   "theorems": [
    "Neffos.c21_refuted_late",
    "Neffos.c21_connected_partial",
    "Neffos.c21_joined_partial",
    "Neffos.c21_event_partial",
    "Neffos.c21_refuted",
    "Neffos.c21_forged_refuted"
   ],
   "note": "Proved for all histories: being connected implies OnNamespaceConnect then OnNamespaceConnected happened, being in a room implies OnRoomJoin then OnRoomJoined, and every callback run by an incoming message belongs to the connected NSConn. Refuted: OnNamespaceDisconnect precedes the forced room leaves on the server, a peer can emit events with lifecycle names, and with a Close in another goroutine OnNamespaceConnected can come last."
  },
  {
   "property": "C22",
   "status": "partial",
   "theorems": [
    "Neffos.c22_refuted_early",
    "Neffos.c22_refuted_left",
    "Neffos.c22_close",
    "Neffos.c22_again",
    "Neffos.c22_once",
    "Neffos.c22_native_refuted"
   ],
   "note": "Exact effect of Close on any reachable open connection and of a further Close; channel closed and server told once in every history and (C57) in every interleaving. Refuted for native-only connections; refuted for interleavings: a second Close returns before the first one has left anything, and a Leave under way makes OnRoomLeft fire twice."
  },
  {
   "property": "C23",
   "status": "partial",
   "theorems": [
    "Neffos.c23_refuted_twice",
    "Neffos.c23_refuted_leak",
    "Neffos.c23_once_partial",
    "Neffos.c23_silent_partial",
    "Neffos.c23_ask",
    "Neffos.c23_over_partial",
    "Neffos.c23_refuted",
    "Neffos.c23_connect_refuted"
   ],
   "note": "Silence and failing Ask after Close proved for all steps; emptiness proved once the reader ended and no Ask is open; OnNamespaceDisconnect at most once per NSConn in every interleaving without a Disconnect. Refuted before that: a namespace can be connected after Close returned, and stays connected for ever; a Disconnect under way makes OnNamespaceDisconnect fire twice."
  },
  {
   "property": "C24",
   "status": "partial",
   "theorems": [
    "Neffos.c24_success_partial",
    "Neffos.c24_error_partial",
    "Neffos.c24_returns_partial",
    "Neffos.c24_refuted_native"
   ],
   "note": "Proved for neffos clients and servers, over all interleavings and sockets: a successful Dial has the server-side ID and OnConnect returned nil or used the connection first (c24_success_partial); an OnConnect error gives Dial exactly that text and closes the server side (c24_error_partial); with accepting sockets Dial returns with OnConnect's verdict (c24_returns_partial). Left out: native-only sides, for which the claim is false (c24_refuted_native)."
  },
  {
   "property": "C25",
   "status": "partial",
   "theorems": [
    "Neffos.c25_source_partial",
    "Neffos.c25_fixed_partial",
    "Neffos.c25_refuted"
   ],
   "note": "fails: a client that opens with the acknowledgement prefix and a name is known under that name on the server (c25_refuted). Proved: the ID is the generated one or the rest of a received acknowledgement payload, and after acknowledgement it never changes while the connection is open."
  },
  {
   "property": "C26",
   "status": "partial",
   "theorems": [
    "Neffos.c26_stored_partial",
    "Neffos.c26_handled_partial",
    "Neffos.c26_woken_partial",
    "Neffos.c26_continued_partial",
    "Neffos.c26_goes_on_partial",
    "Neffos.c26_text_partial",
    "Neffos.c26_refuted_order",
    "Neffos.c26_refuted_client",
    "Neffos.c26_refuted_native"
   ],
   "note": "fails in general: c26_refuted_order (handled in groups by type), c26_refuted_client and c26_refuted_native. Proved: while unacknowledged every payload is stored in order, and the queue of text messages is handled in order, each once, when the handshake finishes."
  },
  {
   "property": "C27",
   "status": "partial",
   "theorems": [
    "Neffos.c27_own_partial",
    "Neffos.c27_once",
    "Neffos.c27_refuted",
    "Neffos.c27_refuted_tick"
   ],
   "note": "Proved for the interleaving machine of conn.ask/Server.Ask and the reader (any number of Asks): an Ask that began outside a handler returns only a message with its token, and no message completes two Asks. Refuted: isInsideHandler belongs to the connection, so an Ask of any goroutine that begins while a callback runs takes the next message; two Asks in one clock tick share a token and one of them never returns."
  },
  {
   "property": "C28",
   "status": "partial",
   "theorems": [
    "Neffos.c28_refuted",
    "Neffos.c28_next_partial"
   ],
   "note": "Refuted: the Ask of a callback takes the next message that arrives, whatever it is. Partial: it returns exactly the next message, so its answer if that comes next."
  },
  {
   "property": "C29",
   "status": "partial",
   "theorems": [
    "Neffos.c29_refuted_stuck",
    "Neffos.c29_refuted",
    "Neffos.c29_ctx_partial",
    "Neffos.c29_before_partial",
    "Neffos.c29_next_partial"
   ],
   "note": "Refuted: Close drops the table of waiting Asks without waking them; without a context deadline such an Ask never returns. Partial: it returns if its context gets done, if it had not reached its wait, or if it waits for the next message."
  },
  {
   "property": "C30",
   "status": "partial",
   "theorems": [
    "Neffos.c30_refuted_stuck",
    "Neffos.c30_refuted",
    "Neffos.c30_refuted_second",
    "Neffos.c30_refuted_twice",
    "Neffos.c30_conn_partial",
    "Neffos.c30_server_partial"
   ],
   "note": "Refuted for Server.Ask (late answer, or second answer looked up before the entry is deleted) and for a second answer to a Conn.Ask that gave up: the reader never handles another message. Partial: with distinct tokens an answer to a Conn.Ask never stops the reader; an answer to a waiting Server.Ask is taken at once."
  },
  {
   "property": "C31",
   "status": "partial",
   "theorems": [
    "Neffos.c31_calm_partial",
    "Neffos.c31_error_partial",
    "Neffos.c31_woken_partial",
    "Neffos.c31_after_partial",
    "Neffos.c31_single_partial",
    "Neffos.c31_refuted_lost",
    "Neffos.c31_refuted_panic",
    "Neffos.c31_refuted_early"
   ],
   "note": "fails: lost wake-up for one waiter and one signal (c31_refuted_lost), double close with two of each (c31_refuted_panic), early return of a second waiter (c31_refuted_early). Proved for all schedules and any number of signals and one waiter: no panic, only an error of a signal, a waiter blocked before the signal is woken; for any number of waiters: a wait started after the signal never blocks, one signal never panics."
  },
  {
   "property": "C32",
   "status": "partial",
   "theorems": [
    "Neffos.c32_held_partial",
    "Neffos.c32_calm_partial",
    "Neffos.c32_released_partial",
    "Neffos.c32_refuted_race",
    "Neffos.c32_refuted_later",
    "Neffos.c32_refuted_stuck",
    "Neffos.c32_refuted_panic",
    "Neffos.c32_event_held_partial",
    "Neffos.c32_event_waits",
    "Neffos.c32_event_passes_partial"
   ],
   "note": "Gate machine (any number of Connect callers and event waiters, one atomic instruction per step): events are held while the first round of Connects is in progress and released when all returned; on a connection the reader holds exactly the event and only that, waits as long as a Connect is in progress, and passes when none is. Refuted in general: process.Done latches after the first round, so a later Connect (reconnect) gates nothing; process start races with isDone; a Wait that loaded isRunning before can stick; Done without Start panics."
  },
  {
   "property": "C33",
   "status": "partial",
   "theorems": [
    "Neffos.c33_refuted_stuck",
    "Neffos.c33_refuted",
    "Neffos.c33_completes_partial"
   ],
   "note": "Refuted: an event of the namespace that arrives before the answer parks the reader on the gate, and nothing except the caller's context lets Connect return. Partial: completes when no event of a namespace being connected comes before the answer."
  },
  {
   "property": "C34",
   "status": "partial",
   "theorems": [
    "Neffos.c34_refuted",
    "Neffos.c34_closed_partial",
    "Neffos.c34_acked_partial"
   ],
   "note": "Refuted: ten seconds are not a multiple of fifteen milliseconds, so the wait never ends while the client neither acknowledges nor closes. Proved: it ends once the connection is closed after five seconds, or acknowledged."
  },
  {
   "property": "C35",
   "status": "partial",
   "theorems": [
    "Neffos.c35_count",
    "Neffos.c35_settled_partial",
    "Neffos.c35_refuted_stuck",
    "Neffos.c35_refuted",
    "Neffos.c35_late_partial"
   ],
   "note": "The counter equals the map size at every reachable state outside two single steps of the loop (c35_count). The second half is false: select may receive a disconnect before the connect still in the channel, and the connection then stays registered for ever (c35_refuted). Partial: it holds when every close comes after registration (c35_late_partial), and settled states are characterised exactly (c35_settled_partial)."
  },
  {
   "property": "C36",
   "status": "partial",
   "theorems": [
    "Neffos.c36_once",
    "Neffos.c36_only",
    "Neffos.c36_fired",
    "Neffos.c36_exch_refuted",
    "Neffos.c36_exch_partial"
   ],
   "note": "OnDisconnect: at most once, only after registration and removal (c36_once), only if ready without error or always (c36_only), and then always (c36_fired). The StackExchange clause is false (c36_exch_refuted): the continue of server.go:184 skips it; it holds when the callback fires or is nil (c36_fired) and at most once (c36_exch_partial)."
  },
  {
   "property": "C37",
   "status": "partial",
   "theorems": [
    "Neffos.c37_recipient_partial",
    "Neffos.c37_refuted_id",
    "Neffos.c37_refuted_event"
   ],
   "note": "Refuted for an empty ID and for the connect and disconnect events; proved for other messages. How a batch reaches the connections is C41 to C43."
  },
  {
   "property": "C38",
   "status": "partial",
   "theorems": [
    "Neffos.c38_batch_partial",
    "Neffos.c38_refuted",
    "Neffos.c38_refuted_witness"
   ],
   "note": "Refuted: a connection that skips one message of a batch gets none of the later ones. Proved when no skipped message precedes one that is not skipped."
  },
  {
   "property": "C39",
   "status": "partial",
   "theorems": [
    "Neffos.c39_identity",
    "Neffos.c39_pointer",
    "Neffos.c39_conn",
    "Neffos.c39_sent",
    "Neffos.c39_sent_id",
    "Neffos.c39_exchange_refuted"
   ],
   "note": "Proved for the local path; refuted for the exchange because the sender is not serialized."
  },
  {
   "property": "C40",
   "status": "partial",
   "theorems": [
    "Neffos.c40_refuted",
    "Neffos.c40_refuted_witness",
    "Neffos.c40_partial"
   ],
   "note": "Refuted: the slice is marked in place. Proved when the earlier broadcasts excluded nobody or left the same kind of mark."
  },
  {
   "property": "C41",
   "status": "partial",
   "theorems": [
    "Neffos.c41_batches_partial",
    "Neffos.c41_order_partial",
    "Neffos.c41_no_older_partial",
    "Neffos.c41_no_panic",
    "Neffos.c41_completes_partial",
    "Neffos.c41_refuted_blocks",
    "Neffos.c41_refuted_torn"
   ],
   "note": "Proved over all schedules of any number of calls and connections: batches are whole batches of calls and all connections follow one order if a slice is read at once; no channel is closed twice; a call waits only for the holder of the mutex. Refuted: messages is read without the mutex, so a slice can be torn, and a call blocks while a connection publishes."
  },
  {
   "property": "C42",
   "status": "partial",
   "theorems": [
    "Neffos.c42_once_partial",
    "Neffos.c42_wakes_partial",
    "Neffos.c42_refuted_lost",
    "Neffos.c42_refuted_twice"
   ],
   "note": "Refuted: a batch can be lost or received twice. Proved: with one call between two points where the connection waits for the next batch it gets that batch exactly once, and no wake-up is lost."
  },
  {
   "property": "C43",
   "status": "proved",
   "theorems": [
    "Neffos.c43_offered",
    "Neffos.c43_order",
    "Neffos.c43_no_loss"
   ],
   "note": "Interleaving model of the loop with any number of upgrades, closes and calls: offered = served while registered, no duplicates (c43_offered), order of calls (c43_order), nothing lost (c43_no_loss)."
  },
  {
   "property": "C44",
   "status": "partial",
   "theorems": [
    "Neffos.c44_safe_partial",
    "Neffos.c44_table_partial",
    "Neffos.c44_refuted",
    "Neffos.c44_refuted_broadcast"
   ],
   "note": "Refuted: most callbacks run with a lock held. Proved: the exact table of which call is safe in which callback (c44_table_partial), and that with these nothing blocks for ever, for any number of goroutines, connections and namespaces and all schedules (c44_safe_partial). Calls about other connections from callbacks that hold a lock are not covered."
  },
  {
   "property": "C45",
   "status": "partial",
   "theorems": [
    "Neffos.c45_refused_partial",
    "Neffos.c45_second_partial",
    "Neffos.c45_closed",
    "Neffos.c45_all_partial",
    "Neffos.c45_refuted_mid",
    "Neffos.c45_refuted_boot"
   ],
   "note": "False in two ways: an Upgrade between its check and its registration survives (c45_refuted_mid), and a Close before the loop's first statement is undone (c45_refuted_boot). Proved otherwise: registered connections are closed (c45_closed), later upgrades refused and second Close inert once the loop runs (c45_refused_partial, c45_second_partial), and no survivor if no Upgrade is in between (c45_all_partial)."
  },
  {
   "property": "C46",
   "status": "proved",
   "theorems": [
    "Neffos.c46_closed",
    "Neffos.c46_head",
    "Neffos.c46_method",
    "Neffos.c46_upgrader",
    "Neffos.c46_conn",
    "Neffos.c46_created",
    "Neffos.c46_returned",
    "Neffos.c46_reconnect"
   ],
   "note": "Effects of one Upgrade: every early exit and what it wrote, what the created connection gets and what is returned. The HTTP library and the upgrader are oracles."
  },
  {
   "property": "C47",
   "status": "proved",
   "theorems": [
    "Neffos.c47_values",
    "Neffos.c47_empty",
    "Neffos.c47_order",
    "Neffos.c47_canonical",
    "Neffos.c47_names",
    "Neffos.c47_letters"
   ],
   "note": "The order of values coming from differently spelled parameters follows the iteration order of the map; it is determined when the canonical names are distinct."
  },
  {
   "property": "C48",
   "status": "partial",
   "theorems": [
    "Neffos.c48_value",
    "Neffos.c48_set_get",
    "Neffos.c48_unset",
    "Neffos.c48_returns",
    "Neffos.c48_count",
    "Neffos.c48_lost_refuted",
    "Neffos.c48_separate_partial"
   ],
   "note": "Sequential behaviour exact for all operation lists, with any number of interleaved clients. Refuted: Increment is not atomic and concurrent increments are lost. Concurrent uses of different keys are proved exact."
  },
  {
   "property": "C49",
   "status": "partial",
   "theorems": [
    "Neffos.c49_use",
    "Neffos.c49_use_error",
    "Neffos.c49_disconnect",
    "Neffos.c49_subscribe",
    "Neffos.c49_unsubscribe",
    "Neffos.c49_publish",
    "Neffos.c49_connect",
    "Neffos.c49_notify",
    "Neffos.c49_ask_partial",
    "Neffos.c49_ask_refuted"
   ],
   "note": "All calls except Ask are proved; Ask is refuted because the next exchange asks with the message returned by the failing one, and proved for exchanges that return the message unchanged."
  },
  {
   "property": "C50",
   "status": "partial",
   "theorems": [
    "Neffos.c50_redis_partial",
    "Neffos.c50_nats_partial",
    "Neffos.c50_redis_refuted",
    "Neffos.c50_nats_refuted",
    "Neffos.c50_refuted_pattern",
    "Neffos.c50_publish"
   ],
   "note": "The statement is false: IDs and namespaces share one channel space (c50_redis_refuted, c50_nats_refuted) and an ID can be a pattern (c50_refuted_pattern). Partial: names without pattern bytes (redis) or single literal tokens (nats), and no namespace called like the ID. Redis glob and nats subject matching are modelled from their manuals."
  },
  {
   "property": "C51",
   "status": "partial",
   "theorems": [
    "Neffos.c51_redis_partial",
    "Neffos.c51_nats_partial",
    "Neffos.c51_follows",
    "Neffos.c51_redis_member_partial",
    "Neffos.c51_nats_refuted",
    "Neffos.c51_refuted_id",
    "Neffos.c51_refuted_native",
    "Neffos.c51_nats_refuted_empty"
   ],
   "note": "c51_follows shows that the calls follow membership and c51_redis_member_partial composes it with the redis exchange. False in general: double subscription with nats (c51_nats_refuted), an ID equal to a namespace (c51_refuted_id), native-only connections (c51_refuted_native), the empty namespace with nats (c51_nats_refuted_empty). Partial: the exchange handles calls one after another (its own loop is a channel); names as in C50."
  },
  {
   "property": "C52",
   "status": "proved",
   "theorems": [
    "Neffos.c52_close",
    "Neffos.c52_disconnect",
    "Neffos.c52_nil",
    "Neffos.c52_write",
    "Neffos.c52_written"
   ],
   "note": "Exact for all errors of the classification's shape; the write half is about the connection machine."
  },
  {
   "property": "C53",
   "status": "proved",
   "theorems": [
    "Neffos.c53_connections",
    "Neffos.c53_by_namespace"
   ],
   "note": "Characterises both snapshots over any registry content; the race with the server loop is a separate property."
  },
  {
   "property": "C54",
   "status": "partial",
   "theorems": [
    "Neffos.c54_event_partial",
    "Neffos.c54_refuted",
    "Neffos.c54_room_refuted"
   ],
   "note": "Refusals by callbacks and of undeclared namespaces are answered. Refuted: a request or event of a namespace that is not connected is never answered, nor is the error of an event to a room that is not joined."
  },
  {
   "property": "C55",
   "status": "proved",
   "theorems": [
    "Neffos.c55_empty_answer",
    "Neffos.c55_received_token_no_separator"
   ],
   "note": "Exact: all received tokens have no separator, and the answer decodes with that token exactly when it is plain."
  },
  {
   "property": "C56",
   "status": "partial",
   "theorems": [
    "Neffos.c56_timeouts_partial",
    "Neffos.c56_refuted"
   ],
   "note": "Refuted for JoinConnHandlers, which drops the timeouts. Proved for every single handler. C115 has the exact timeouts and what they do."
  },
  {
   "property": "C57",
   "status": "proved",
   "theorems": [
    "Neffos.c57_one_winner",
    "Neffos.c57_exact",
    "Neffos.c57_found",
    "Neffos.c57_undisturbed",
    "Neffos.c57_each_once",
    "Neffos.c57_at_most_once",
    "Neffos.c57_exactly_once",
    "Neffos.c57_progress",
    "Neffos.c57_ends"
   ],
   "note": "Interleaving machine of one connection (Model/CloseRace.lean); exact events of a finished Close, one winner, the map undisturbed while it works, last events exactly once, progress and a bound on every schedule."
  },
  {
   "property": "C58",
   "status": "proved",
   "theorems": [
    "Neffos.c58_leave_all",
    "Neffos.c58_leave_nil",
    "Neffos.c58_disconnect_all",
    "Neffos.c58_disconnect_nil",
    "Neffos.c58_native"
   ],
   "note": "Exact result, callbacks and remaining membership of both calls for every order and every outcome of requests and callbacks."
  },
  {
   "property": "C59",
   "status": "partial",
   "theorems": [
    "Neffos.c59_exact_partial",
    "Neffos.c59_progress_partial",
    "Neffos.c59_bound_partial",
    "Neffos.c59_refuted_event",
    "Neffos.c59_refuted_both_leave",
    "Neffos.c59_refuted_disconnect",
    "Neffos.c59_mutex"
   ],
   "note": "Refuted: both calls hold a mutex across the request, and the reader that has to deliver the answer takes the same mutex for other messages (any event for DisconnectAll, room requests for LeaveAll). Proved: the exact condition under which the call can still return, and progress while no such message comes."
  },
  {
   "property": "C60",
   "status": "proved",
   "theorems": [
    "Neffos.c60_one_writer",
    "Neffos.c60_locked",
    "Neffos.c60_leaveAll",
    "Neffos.c60_getConnections",
    "Neffos.c60_waitMessages",
    "Neffos.c60_exact",
    "Neffos.c60_free"
   ],
   "note": "Model/Access.lean: every entry point as its sequence of lock operations and accesses, callbacks nested in any way; c60_exact says for which variables a race is reachable (iff), c60_one_writer and c60_locked that writers are alone, c60_free that a program without the three is race free. Waiting other than for mutexes is left out, which adds interleavings; fields set before a connection is shared, atomics and channels are not modelled. GetConnections is documented as not thread safe."
  },
  {
   "property": "C61",
   "status": "proved",
   "theorems": [
    "Neffos.c61_exchange",
    "Neffos.c61_server",
    "Neffos.c61_own",
    "Neffos.c61_unclaimed",
    "Neffos.c61_blocked",
    "Neffos.c61_returns",
    "Neffos.c61_ask",
    "Neffos.c61_next"
   ],
   "note": "Decision theorems for the reader and for Ask, each giving the whole next state; the case that nobody waits is reduced to the hypothesis of the request and event theorems. Goroutines of Asks are followed instruction by instruction in C27 to C30."
  },
  {
   "property": "C62",
   "status": "proved",
   "theorems": [
    "Neffos.c62_order",
    "Neffos.c62_exact",
    "Neffos.c62_client",
    "Neffos.c62_client_exact",
    "Neffos.c62_server",
    "Neffos.c62_server_exact",
    "Neffos.c62_emitted",
    "Neffos.c62_unconnected_lost"
   ],
   "note": "c62_order and c62_exact speak about one connection, c62_client/_server(_exact) about both sides of a session, c62_emitted about what a Write puts on the wire. The exact versions suppose that no Ask made while the reader is inside a handler reads from the socket itself (that payload is lost, see C61) and a connection that is not native-only; c62_unconnected_lost shows that the connectedness is needed."
  },
  {
   "property": "C63",
   "status": "proved",
   "theorems": [
    "Neffos.c63_request",
    "Neffos.c63_unanswered",
    "Neffos.c63_answered",
    "Neffos.c63_returned",
    "Neffos.c63_client",
    "Neffos.c63_server"
   ],
   "note": "End to end in the session model, both directions; sockets are FIFO."
  },
  {
   "property": "C64",
   "status": "partial",
   "theorems": [
    "Neffos.c64_exact",
    "Neffos.c64_instance_partial",
    "Neffos.c64_hidden_refuted",
    "Neffos.c64_time_refuted",
    "Neffos.c64_method_refuted",
    "Neffos.c64_preset_refuted",
    "Neffos.c64_says_refuted"
   ],
   "note": "Exact result and panics for all struct values (c64_exact); the claim holds for controllers with exported fields, a nil NSConn and truthful IsZero() bool methods. Refuted otherwise."
  },
  {
   "property": "C65",
   "status": "partial",
   "theorems": [
    "Neffos.c65_method",
    "Neffos.c65_field",
    "Neffos.c65_none",
    "Neffos.c65_promoted_refuted",
    "Neffos.c65_promoted_witness_refuted"
   ],
   "note": "Exact for the method, own fields and no field. Refuted for a field that is promoted from an embedded struct."
  },
  {
   "property": "C66",
   "status": "proved",
   "theorems": [
    "Neffos.c66_settings"
   ],
   "note": "All sequences of calls."
  },
  {
   "property": "C67",
   "status": "partial",
   "theorems": [
    "Neffos.c67_fifo_partial",
    "Neffos.c67_gorilla",
    "Neffos.c67_end",
    "Neffos.c67_utf8",
    "Neffos.c67_utf8_refuted"
   ],
   "note": "Proved for gorilla and, with gobwas, for text that is UTF-8; exact end of the reading. Refuted for other text with gobwas."
  },
  {
   "property": "C68",
   "status": "partial",
   "theorems": [
    "Neffos.c68_gobwas",
    "Neffos.c68_gorilla",
    "Neffos.c68_silent",
    "Neffos.c68_error",
    "Neffos.c68_ping_refuted"
   ],
   "note": "Exact for both; the claim holds for gobwas and fails for gorilla, which does not count pings."
  },
  {
   "property": "C69",
   "status": "partial",
   "theorems": [
    "Neffos.c69_messages_partial",
    "Neffos.c69_all_partial",
    "Neffos.c69_progress",
    "Neffos.c69_pong_refuted"
   ],
   "note": "All interleavings of any number of message writers. Refuted for the control answers of gobwas."
  },
  {
   "property": "C70",
   "status": "partial",
   "theorems": [
    "Neffos.c70_gobwas",
    "Neffos.c70_gorilla",
    "Neffos.c70_own_call_partial",
    "Neffos.c70_queue_refuted"
   ],
   "note": "Exact for both; the claim holds for gobwas and fails for gorilla, whose timeout counts from the last call."
  },
  {
   "property": "C71",
   "status": "partial",
   "theorems": [
    "Neffos.c71_returned",
    "Neffos.c71_error",
    "Neffos.c71_finds",
    "Neffos.c71_context",
    "Neffos.c71_closed_refuted",
    "Neffos.c71_stale_refuted"
   ],
   "note": "What is returned and when, over all interleavings; refuted: it does not end on a closed connection, and what it returns can have left."
  },
  {
   "property": "C72",
   "status": "partial",
   "theorems": [
    "Neffos.c72_on_partial",
    "Neffos.c72_chain",
    "Neffos.c72_nil",
    "Neffos.c72_shared_refuted"
   ],
   "note": "All sequences of calls for maps that are not shared; refuted for shared maps."
  },
  {
   "property": "C73",
   "status": "partial",
   "theorems": [
    "Neffos.c73_accepts",
    "Neffos.c73_handles_partial",
    "Neffos.c73_none_refuted"
   ],
   "note": "Exact acceptance; refuted: a struct whose methods are no callbacks is taken."
  },
  {
   "property": "C74",
   "status": "partial",
   "theorems": [
    "Neffos.c74_value_partial",
    "Neffos.c74_choice",
    "Neffos.c74_error_refuted"
   ],
   "note": "Composition with the wire round trip for values that can be marshaled; refuted for errors of the marshaler."
  },
  {
   "property": "C75",
   "status": "partial",
   "theorems": [
    "Neffos.c75_first",
    "Neffos.c75_start",
    "Neffos.c75_notify_partial",
    "Neffos.c75_marked_partial",
    "Neffos.c75_unrecognised_refuted",
    "Neffos.c75_native_refuted",
    "Neffos.c75_early_refuted",
    "Neffos.c75_request"
   ],
   "note": "Missing: the answers of clients are never recognised because the token is not marked (C08); they are handled as new events. Native answers and, with nats, answers before the subscription are lost. Proved: what ends an Ask and what it returns, for every order of events; the content of what NotifyAsk publishes."
  },
  {
   "property": "C76",
   "status": "proved",
   "theorems": [
    "Neffos.c76_bounds",
    "Neffos.c76_every",
    "Neffos.c76_exact"
   ],
   "note": "Exact, for Increment and for Decrement: c76_exact is an iff over all interleavings."
  },
  {
   "property": "C77",
   "status": "proved",
   "theorems": [
    "Neffos.c77_marks",
    "Neffos.c77_handed",
    "Neffos.c77_sent",
    "Neffos.c77_exact"
   ],
   "note": "Exact for every reachable connection, batch and history of the slice; the failures of C37, C38 and C40 are instances."
  },
  {
   "property": "C78",
   "status": "proved",
   "theorems": [
    "Neffos.c78_namespaces",
    "Neffos.c78_rooms",
    "Neffos.c78_agree",
    "Neffos.c78_connect",
    "Neffos.c78_join",
    "Neffos.c78_leave",
    "Neffos.c78_disconnect",
    "Neffos.c78_covers",
    "Neffos.c78_clash_refuted"
   ],
   "note": "Proved for every session keeping to the stated rules: agreement at every moment outside the calls in flight (c78_namespaces, c78_rooms), full agreement when none is in flight (c78_agree), the outcome of each call on both sides (c78_connect, c78_join, c78_leave, c78_disconnect). It covers the histories of C16 (c78_covers). c78_clash_refuted shows that the rule against clashing calls, which the statement makes, is needed."
  },
  {
   "property": "C79",
   "status": "proved",
   "theorems": [
    "Neffos.c79_answer",
    "Neffos.c79_ready",
    "Neffos.c79_waiting",
    "Neffos.c79_badnamespace_refuted"
   ],
   "note": "Exact: c79_answer says what an answer means, c79_ready that it can be taken, c79_waiting lists every reason for an Ask that waits; the reasons Silence.room and Away occur in the examples."
  },
  {
   "property": "C80",
   "status": "proved",
   "theorems": [
    "Neffos.c80_up",
    "Neffos.c80_down",
    "Neffos.c80_woken",
    "Neffos.c80_reconnect_refuted"
   ],
   "note": "both directions, any number of calls in flight; exact conditions under which the callback runs, the event is held back or is dropped; c80_reconnect_refuted is the witness that the last case occurs"
  },
  {
   "property": "C81",
   "status": "proved",
   "theorems": [
    "Neffos.c81_ready",
    "Neffos.c81_waiting",
    "Neffos.c81_gate",
    "Neffos.c81_rest",
    "Neffos.c81_noisy_refuted"
   ],
   "note": "Proved for the sessions of C78: ready answers can be taken, a reader at the connect gate never blocks its own answer, and a session in which nothing can move has only unanswered plain Asks left. The condition on forced-leave callbacks is necessary (c81_noisy_refuted)."
  },
  {
   "property": "C82",
   "status": "proved",
   "theorems": [
    "Neffos.c82_answer",
    "Neffos.c82_endless"
   ],
   "note": "exact; the endless exchange is a consequence of the code, see DESIGN.md"
  },
  {
   "property": "C83",
   "status": "proved",
   "theorems": [
    "Neffos.c83_bound",
    "Neffos.c83_returns",
    "Neffos.c83_settles"
   ],
   "note": "Total: bound on the steps, end state and existence of the end, for all schedules. Conditions on callbacks as stated; C82 shows that the exchange of errors can otherwise go on for ever."
  },
  {
   "property": "C84",
   "status": "proved",
   "theorems": [
    "Neffos.c84_place",
    "Neffos.c84_order",
    "Neffos.c84_lost",
    "Neffos.c84_returns",
    "Neffos.c84_swallowed"
   ],
   "note": "Exact: c84_place (one place), c84_order, and both directions for messages in the hands of an Ask (c84_lost, c84_returns); c84_swallowed is a witness of a loss."
  },
  {
   "property": "C85",
   "status": "proved",
   "theorems": [
    "Neffos.c85_panic",
    "Neffos.c85_early",
    "Neffos.c85_result",
    "Neffos.c85_blocked"
   ],
   "note": "Four equivalences over all schedules and any number of goroutines; they say exactly when C31 fails."
  },
  {
   "property": "C86",
   "status": "proved",
   "theorems": [
    "Neffos.c86_told",
    "Neffos.c86_kept",
    "Neffos.c86_leak",
    "Neffos.c86_count"
   ],
   "note": "Exact companion of C35: which registered connections can never be dropped, which connections can still get there, and what the counter then shows."
  },
  {
   "property": "C87",
   "status": "proved",
   "theorems": [
    "Neffos.c87_exact",
    "Neffos.c87_half",
    "Neffos.c87_silent"
   ],
   "note": "Exact companion of C34: the round and the result for every behaviour of the client."
  },
  {
   "property": "C88",
   "status": "proved",
   "theorems": [
    "Neffos.c88_arrives",
    "Neffos.c88_native",
    "Neffos.c88_same_bytes"
   ],
   "note": "Exact companion of C01, C02, C05 and C09: one equivalence over all messages."
  },
  {
   "property": "C89",
   "status": "proved",
   "theorems": [
    "Neffos.c89_namespaces",
    "Neffos.c89_rooms",
    "Neffos.c89_agree",
    "Neffos.c89_client",
    "Neffos.c89_server",
    "Neffos.c89_clash_refuted"
   ],
   "note": "Proved for every session keeping to the stated rules: agreement at every moment outside the calls in flight of either side (c89_namespaces, c89_rooms), full agreement when none is in flight (c89_agree), the outcome of each call of the client and of the server (c89_client, c89_server). c89_clash_refuted shows that the rule against clashing calls, which the statement makes, is needed."
  },
  {
   "property": "C90",
   "status": "partial",
   "theorems": [
    "Neffos.c90_rest_partial",
    "Neffos.c90_stuck",
    "Neffos.c90_refuted"
   ],
   "note": "refuted by c90_refuted: an event emitted while a Disconnect of the same side is in flight can block the reader of the other side before the answer to its next Connect; c90_rest_partial shows that a session stands still only in this way (HeldBack) or when nothing is left to do; c90_stuck shows that HeldBack lasts for ever"
  },
  {
   "property": "C91",
   "status": "proved",
   "theorems": [
    "Neffos.c91_redis",
    "Neffos.c91_nats",
    "Neffos.c91_nats_none",
    "Neffos.c91_channel",
    "Neffos.c91_direct"
   ],
   "note": "Exact companion of C50 and C51: arbitrary names, and nats subscriptions made twice."
  },
  {
   "property": "C92",
   "status": "proved",
   "theorems": [
    "Neffos.c92_state",
    "Neffos.c92_refused",
    "Neffos.c92_wait",
    "Neffos.c92_native"
   ],
   "note": "exact companion of C25 and C26"
  },
  {
   "property": "C93",
   "status": "proved",
   "theorems": [
    "Neffos.c93_not_held",
    "Neffos.c93_rest",
    "Neffos.c93_bound",
    "Neffos.c93_returns",
    "Neffos.c93_settles"
   ],
   "note": "for all sessions that keep to the rule; the rule is needed, see c90_refuted"
  },
  {
   "property": "C94",
   "status": "proved",
   "theorems": [
    "Neffos.c94_heard",
    "Neffos.c94_same"
   ],
   "note": "The end-to-end claim for any number of clients; with the default broadcaster C41 and C42 fail. That the clients stay, and that they have read everything, are hypotheses on the run; the example meets them with two clients and three broadcasts."
  },
  {
   "property": "C95",
   "status": "proved",
   "theorems": [
    "Neffos.c95_ledger",
    "Neffos.c95_forged",
    "Neffos.c95_failed"
   ],
   "note": "Exact companion of C21: the callbacks determine the memberships in every history. The two conditions (no forged notifications, no failed write on a closed connection) are shown necessary by c95_forged and c95_failed."
  },
  {
   "property": "C96",
   "status": "proved",
   "theorems": [
    "Neffos.c96_robust",
    "Neffos.c96_native",
    "Neffos.c96_needed"
   ],
   "note": "Exact companion of C14 and C44 for one connection: which operations get to their end. The condition on callbacks is shown necessary by c96_needed."
  },
  {
   "property": "C97",
   "status": "proved",
   "theorems": [
    "Neffos.c97_reader",
    "Neffos.c97_conn",
    "Neffos.c97_lost",
    "Neffos.c97_why",
    "Neffos.c97_client",
    "Neffos.c97_server",
    "Neffos.c97_server_why",
    "Neffos.c97_next"
   ],
   "note": "Exact companion of C27-C30: when an Ask can still be answered and when the reader is lost, both directions, for every reachable state of the interleaving model."
  },
  {
   "property": "C98",
   "status": "proved",
   "theorems": [
    "Neffos.c98_received",
    "Neffos.c98_received_serial",
    "Neffos.c98_exact",
    "Neffos.c98_exact_serial",
    "Neffos.c98_number",
    "Neffos.c98_repeats",
    "Neffos.c98_repeats_serial"
   ],
   "note": "exact in both directions, with and without overlapping calls; slices are read and written at once (torn reads: C41, C42)"
  },
  {
   "property": "C99",
   "status": "proved",
   "theorems": [
    "Neffos.c99_calm",
    "Neffos.c99_client",
    "Neffos.c99_error",
    "Neffos.c99_error_any",
    "Neffos.c99_native",
    "Neffos.c99_returns",
    "Neffos.c99_lost",
    "Neffos.c99_prompt",
    "Neffos.c99_fair",
    "Neffos.c99_url",
    "Neffos.c99_url_plain",
    "Neffos.c99_lost_honest",
    "Neffos.c99_mark",
    "Neffos.c99_mark_lost"
   ],
   "note": "Dial and its reader as two goroutines over the latch; hanging with an honest server is shown by c99_lost_honest"
  },
  {
   "property": "C100",
   "status": "proved",
   "theorems": [
    "Neffos.c100_survives",
    "Neffos.c100_can",
    "Neffos.c100_close",
    "Neffos.c100_registered",
    "Neffos.c100_passes"
   ],
   "note": "exact companion of C45"
  },
  {
   "property": "C101",
   "status": "proved",
   "theorems": [
    "Neffos.c101_answer",
    "Neffos.c101_silent",
    "Neffos.c101_iff",
    "Neffos.c101_ignored",
    "Neffos.c101_token"
   ],
   "note": "Exact table of answers, companion of C54"
  },
  {
   "property": "C102",
   "status": "proved",
   "theorems": [
    "Neffos.c102_pass",
    "Neffos.c102_panic",
    "Neffos.c102_calm",
    "Neffos.c102_connect",
    "Neffos.c102_rest",
    "Neffos.c102_look",
    "Neffos.c102_held"
   ],
   "note": "Exact companion of C32: which readers can pass, which steps panic, which are held, for all schedules"
  },
  {
   "property": "C103",
   "status": "proved",
   "theorems": [
    "Neffos.c103_tried",
    "Neffos.c103_result",
    "Neffos.c103_servers",
    "Neffos.c103_with"
   ],
   "note": "the nats library is an oracle; TrimSpace for ASCII white space"
  },
  {
   "property": "C104",
   "status": "proved",
   "theorems": [
    "Neffos.c104_dial",
    "Neffos.c104_node",
    "Neffos.c104_new",
    "Neffos.c104_password"
   ],
   "note": "the radix library is an oracle"
  },
  {
   "property": "C105",
   "status": "proved",
   "theorems": [
    "Neffos.c105_printer",
    "Neffos.c105_off",
    "Neffos.c105_line",
    "Neffos.c105_method",
    "Neffos.c105_panic",
    "Neffos.c105_each"
   ],
   "note": "the types of the inputs of a visitor are taken to fit"
  },
  {
   "property": "C106",
   "status": "proved",
   "theorems": [
    "Neffos.c106_up",
    "Neffos.c106_down",
    "Neffos.c106_held_up",
    "Neffos.c106_held_down"
   ],
   "note": "Both directions; the drop after an earlier Connect is what c102 shows about the gate."
  },
  {
   "property": "C107",
   "status": "proved",
   "theorems": [
    "Neffos.c107_up",
    "Neffos.c107_down",
    "Neffos.c107_rest",
    "Neffos.c107_delivers",
    "Neffos.c107_emitted",
    "Neffos.c107_rule_needed"
   ],
   "note": "All events of both sides arrive in order, exactly once, in every session that keeps the stated rules; the rule about a second Connect is shown to be needed."
  },
  {
   "property": "C108",
   "status": "proved",
   "theorems": [
    "Neffos.c108_gate",
    "Neffos.c108_gate_alone",
    "Neffos.c108_returns"
   ],
   "note": "Both directions are proved. The third part has the hypotheses that the English statement has: callbacks that do not use the connection and a socket that takes every write."
  },
  {
   "property": "C109",
   "status": "proved",
   "theorems": [
    "Neffos.c109_sent",
    "Neffos.c109_name",
    "Neffos.c109_conn"
   ],
   "note": "No assumption about the socket; a connection that closes on the way gets a beginning of its batch."
  },
  {
   "property": "C110",
   "status": "proved",
   "theorems": [
    "Neffos.c110_exact",
    "Neffos.c110_settled"
   ],
   "note": "The exact form of C71: the result is a function of what the rounds of the loop saw."
  },
  {
   "property": "C111",
   "status": "proved",
   "theorems": [
    "Neffos.c111_called",
    "Neffos.c111_none",
    "Neffos.c111_prefix",
    "Neffos.c111_trim"
   ],
   "note": "The exact form of C12."
  },
  {
   "property": "C112",
   "status": "proved",
   "theorems": [
    "Neffos.c112_once",
    "Neffos.c112_look",
    "Neffos.c112_exact",
    "Neffos.c112_same",
    "Neffos.c112_none"
   ],
   "note": "Exact companion of C36: the look at server.go:183 decides both calls."
  },
  {
   "property": "C113",
   "status": "proved",
   "theorems": [
    "Neffos.c113_ask",
    "Neffos.c113_failed",
    "Neffos.c113_shipped",
    "Neffos.c113_empty"
   ],
   "note": "Exact companion of C49's Ask clause."
  },
  {
   "property": "C114",
   "status": "proved",
   "theorems": [
    "Neffos.c114_on",
    "Neffos.c114_cases",
    "Neffos.c114_shares",
    "Neffos.c114_events",
    "Neffos.c114_nil"
   ],
   "note": "Exact companion of C72; the maps that the namespaces point to exist."
  },
  {
   "property": "C115",
   "status": "proved",
   "theorems": [
    "Neffos.c115_server",
    "Neffos.c115_upgrade",
    "Neffos.c115_dial",
    "Neffos.c115_kinds",
    "Neffos.c115_gives_up",
    "Neffos.c115_joined"
   ],
   "note": "Exact companion of C56."
  },
  {
   "property": "C116",
   "status": "proved",
   "theorems": [
    "Neffos.c116_safe",
    "Neffos.c116_table",
    "Neffos.c116_pair",
    "Neffos.c116_alone"
   ],
   "note": "exact table over callback, call and target; all schedules"
  },
  {
   "property": "C117",
   "status": "proved",
   "theorems": [
    "Neffos.c117_ran",
    "Neffos.c117_panics",
    "Neffos.c117_calls"
   ],
   "note": "Exact for every run until the connection is closed; the part that C14 and C22 do not have: what the calls return and when the reader panics."
  },
  {
   "property": "C118",
   "status": "proved",
   "theorems": [
    "Neffos.c118_tries",
    "Neffos.c118_was",
    "Neffos.c118_range"
   ],
   "note": "Exact for all texts and both paths of Atoi."
  },
  {
   "property": "C119",
   "status": "proved",
   "theorems": [
    "Neffos.c119_received",
    "Neffos.c119_panics",
    "Neffos.c119_redis",
    "Neffos.c119_except",
    "Neffos.c119_native_only"
   ],
   "note": "Exact for any list of offered payloads; the redis composition is exact for every subscription history. With nats the same holds for any order of the offers (c119_received)."
  },
  {
   "property": "C120",
   "status": "proved",
   "theorems": [
    "Neffos.c120_exact",
    "Neffos.c120_none"
   ],
   "note": "Exact companion of C65 for every tree of embedded structs."
  },
  {
   "property": "C121",
   "status": "proved",
   "theorems": [
    "Neffos.c121_connect",
    "Neffos.c121_disconnect_server",
    "Neffos.c121_disconnect_client",
    "Neffos.c121_join",
    "Neffos.c121_leave_server",
    "Neffos.c121_leave_client",
    "Neffos.c121_answer",
    "Neffos.c121_event",
    "Neffos.c121_call_connect"
   ],
   "note": "Exact order of callbacks, writes, StackExchange notes and returns for every request, answer and event of a connection that stays open."
  },
  {
   "property": "C122",
   "status": "proved",
   "theorems": [
    "Neffos.c122_answer",
    "Neffos.c122_connect",
    "Neffos.c122_disconnect",
    "Neffos.c122_join",
    "Neffos.c122_leave"
   ],
   "note": "For all reachable states of both sides, from the handling of the request to the return of the call; neither side closes meanwhile."
  },
  {
   "property": "C123",
   "status": "proved",
   "theorems": [
    "Neffos.c123_written",
    "Neffos.c123_heard"
   ],
   "note": "Events as Emit and Broadcast take them, with names that survive escaping and not one of the lifecycle events; callbacks as in C89; the server-side connection has an ID. Who hears a lifecycle event or a message with other names is in C37 and C77. Broadcasts read later, with payloads in between, are in C106."
  },
  {
   "property": "C124",
   "status": "proved",
   "theorems": [
    "Neffos.c124_exact",
    "Neffos.c124_returns",
    "Neffos.c124_all",
    "Neffos.c124_whole"
   ],
   "note": "Both directions for all interleavings of message writers and control answers of gobwas."
  },
  {
   "property": "C125",
   "status": "proved",
   "theorems": [
    "Neffos.c125_agree",
    "Neffos.c125_everyone",
    "Neffos.c125_hears"
   ],
   "note": "All interleavings of the loop with any number of sessions in which both sides call."
  },
  {
   "property": "C126",
   "status": "proved",
   "theorems": [
    "Neffos.c126_body",
    "Neffos.c126_result",
    "Neffos.c126_receives",
    "Neffos.c126_same"
   ],
   "note": "exact companion of C74"
  },
  {
   "property": "C127",
   "status": "proved",
   "theorems": [
    "Neffos.c127_step",
    "Neffos.c127_connects",
    "Neffos.c127_joins",
    "Neffos.c127_joins_iff",
    "Neffos.c127_calls"
   ],
   "note": "exact companion of C23 and of the rooms of C20"
  },
  {
   "property": "C128",
   "status": "proved",
   "theorems": [
    "Neffos.c128_step",
    "Neffos.c128_kept",
    "Neffos.c128_disconnects"
   ],
   "note": "Exact companion of C20 for open connections. Concrete histories for all three ways are given as examples: a late JoinRoom, two Connects at once, and a Disconnect overtaken by a second Connect. For connections with the native namespace only, where there are no Asks, nothing is claimed."
  },
  {
   "property": "C129",
   "status": "proved",
   "theorems": [
    "Neffos.c129_down",
    "Neffos.c129_up",
    "Neffos.c129_order",
    "Neffos.c129_message",
    "Neffos.c129_given",
    "Neffos.c129_agree",
    "Neffos.c129_rest"
   ],
   "note": "theorem c129_down: nothing lost, reordered or repeated on the way to any client; c129_order, c129_agree: one order for all; c129_given: who is given it"
  },
  {
   "property": "C130",
   "status": "proved",
   "theorems": [
    "Neffos.c130_bound",
    "Neffos.c130_rest",
    "Neffos.c130_settles",
    "Neffos.c130_nothing"
   ],
   "note": "theorem c130_bound: every schedule is bounded; c130_rest: nothing is lost where it ends; c130_settles: it can end within the rules"
  },
  {
   "property": "C131",
   "status": "proved",
   "theorems": [
    "Neffos.c131_connections",
    "Neffos.c131_by_namespace",
    "Neffos.c131_only",
    "Neffos.c131_rest"
   ],
   "note": "theorem c131_by_namespace: listed exactly if the client is in the namespace by its own records; c131_rest: for all at rest"
  },
  {
   "property": "C132",
   "status": "proved",
   "theorems": [
    "Neffos.c132_same",
    "Neffos.c132_heard",
    "Neffos.c132_step"
   ],
   "note": "theorem c132_same: a property of pairs of runs; c132_step: what a step of another session leaves alone"
  },
  {
   "property": "C133",
   "status": "proved",
   "theorems": [
    "Neffos.c133_exact",
    "Neffos.c133_window",
    "Neffos.c133_either",
    "Neffos.c133_unheard"
   ],
   "note": "exact for the loop of the model: the registration at the moment the loop receives the call decides; c133_unheard shows a client that is connected to the namespace before the call and does not hear it"
  },
  {
   "property": "C134",
   "status": "proved",
   "theorems": [
    "Neffos.c134_tie",
    "Neffos.c134_closed",
    "Neffos.c134_spared",
    "Neffos.c134_survivor"
   ],
   "note": "exact for the loop together with the sessions; the surviving client is a concrete run (c134_survivor) with a general statement that the server never closes it (c134_spared)"
  },
  {
   "property": "C135",
   "status": "proved",
   "theorems": [
    "Neffos.c135_registered",
    "Neffos.c135_total",
    "Neffos.c135_later",
    "Neffos.c135_listed",
    "Neffos.c135_lost"
   ],
   "note": "exact for the loop together with the sessions; the lost connections are those of C86, a run with one is c135_lost"
  },
  {
   "property": "C136",
   "status": "proved",
   "theorems": [
    "Neffos.c136_bound",
    "Neffos.c136_end",
    "Neffos.c136_ends"
   ],
   "note": "for all schedules of the loop and the goroutines that use it; the calls that callbacks make back into the server are C44 and C116"
  },
  {
   "property": "C137",
   "status": "proved",
   "theorems": [
    "Neffos.c137_bound",
    "Neffos.c137_end",
    "Neffos.c137_ends"
   ],
   "note": "for all schedules of the whole server; a call that a callback makes back into the server counts as a new call"
  },
  {
   "property": "C138",
   "status": "proved",
   "theorems": [
    "Neffos.c138_still",
    "Neffos.c138_last"
   ],
   "note": "c138_still: no step but its own session's changes a closed connection or its client. c138_last: what the socket carries after the closing, in every run."
  },
  {
   "property": "C139",
   "status": "proved",
   "theorems": [
    "Neffos.c139_story",
    "Neffos.c139_over",
    "Neffos.c139_each"
   ],
   "note": "c139_story: the grammar of the events about one connection; c139_over: nothing is brought to a removed connection; c139_each: the converse, every story is reached."
  },
  {
   "property": "C140",
   "status": "proved",
   "theorems": [
    "Neffos.c140_batches",
    "Neffos.c140_shut"
   ],
   "note": "c140_batches: the batches brought to a client are those of the Broadcasts its connection was offered, in order, each once; c140_shut: Server.Close closes it at most once."
  },
  {
   "property": "C141",
   "status": "proved",
   "theorems": [
    "Neffos.c141_turns",
    "Neffos.c141_visits",
    "Neffos.c141_each"
   ],
   "note": "c141_turns: the grammar of the whole log between turns; c141_visits: the same while a call is brought to the connections; c141_each: the converse, every such log is reached."
  }
 ]
}