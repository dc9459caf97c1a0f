# A Lean 4 model of kataras/neffos

This document says what is modelled, how each property of `properties.jsonl` is
proved, and what has to be trusted.

## Layout

* `lean/Verif/Model/*.lean`: executable model, function by function, every
  definition cites the Go file and lines.
* `lean/Verif/Spec/*.lean`: small specifications that do not use the model's
  helpers.
* `lean/Verif/Proofs/*.lean`: helper lemmas.
* `lean/Verif/Props/*.lean`: the property theorems, named after the property
  (`c01_...`), each followed by examples that its hypotheses are met.
* `MANIFEST.json`: property -> theorem names.
* `seeded/LOG.jsonl`: wrong programs tried against the theorems.

## Modelling decisions

* A Go `string` or `[]byte` is a `List UInt8`. `nil` and empty slices are one
  value. A Go `error` is a small first-order type `GoErr` that keeps identity
  (sentinels), text, `Reply` and `CloseError`; `nil` is `none`.
* A panic is `none` in an `Option` result.
* A Go map is an association list with no duplicate keys; a `range` loop visits
  the keys in an order chosen by an arbitrary permutation oracle, so theorems
  hold for every iteration order.
* User callbacks, the socket and the clock are oracles: arbitrary functions of
  the whole observable history. A callback may call `Write` any number of times
  and returns an arbitrary error. What a callback does by calling *blocking* API
  (Ask, Connect, Join...) or lock-taking API is modelled separately (C28, C44).
* Three granularities are used.
  1. **Conn machine** (`Model/Conn.lean`): one `Conn`; a step is one segment of
     code between two blocking points: the reader handles one payload, an API
     call runs until its `Ask` blocks, the asker resumes with the answer, Close.
     Any number of API calls may be in flight and interleave at those points.
     Two Conn machines joined by FIFO byte channels give the client/server
     session model.
  2. **Interleaving machines** for the lock-free and lock-based code where
     the interleaving of single instructions matters: readiness latch, connect
     gate, broadcaster, concurrent Close, Ask/answer channels, server loop,
     store increments. Any number of threads; one step is one atomic
     instruction.
  3. **Whole server** (`Model/Net.lean`): the server's loop of 2 and, for each of
     its connections, the session with its client of 1, with the steps of all of
     them interleaved in any way. What the loop does to a connection it does to
     the session; a session that closes its connection tells the loop.
* `Trace`: every effect another party can see (callback run, bytes handed to the
  socket, subscribe calls, close of the channel, API return values) is appended
  to an observation log; properties about order and multiplicity are stated on
  that log.

## Properties, model and proof

| id | modelled | proof |
|----|----------|-------|
| C01 | `Message`, serialize/deserialize on bytes (message.go) | algebraic round trip, for all bodies |
| C02 | `strings.Replace` as a left-to-right scan | iff by induction on the name; collision witness |
| C03 | same | non-interference: two messages that differ only in one field decode to messages that differ only in that field |
| C04 | `deserializeInput`, `SplitN` | decision theorem against a separator-count spec |
| C05 | `resolveError`, registry | for all texts and registries; empty text refuted |
| C06 | `Reply`, `serializeOutput` | round trip corollary, with the received-message invariant (no separator in wait) |
| C07 | `IsWait`, `ClearWait`, `genWait` | decision theorem |
| C08 | `genWaitStackExchange` with byte arithmetic | expected false (`wait[0]+'!'` adds bytes): prove the negation for every token |
| C09 | `FromExplicit` serialization | round trip when the ID has no `;`; refuted otherwise |
| C10 | `Events.fireEvent` | decision theorem |
| C11 | `JoinConnHandlers` over assoc lists with order oracle; handlers of every kind | refinement to "last declaring handler"; `c11_any` for a mix of Events, Namespaces, WithTimeout and Struct |
| C12 | `makeEventFromMethod` name part, matchers | decision theorems; reflection itself is not modelled |
| C13 | `canWrite`, `Write`, `write` in the Conn machine | iff with the log; `c13_ns_ask`, `c13_room_emit`: the exact bytes of the methods of NSConn and Room |
| C14 | `newConn`, `handleMessage` native branch | step theorem for every payload |
| C15, C17-C19 | Conn machine; `Model/Session.lean` for both sides | exact step theorems for the call, the answer and the incoming request in every state; `_both_partial` over all session runs with one outstanding request; refuted for vetoes by `Reply` |
| C16 | session of two Conn machines over FIFO byte channels | invariant over all runs with one outstanding request (`c16_agree_partial`); six refutations, one per missing assumption |
| C20 | Conn machine | invariants over all operation sequences; rooms of disconnected namespaces refuted |
| C21 | Conn machine log, `Model/CloseRace.lean` | trace invariant over all histories; three counterexamples |
| C22, C23, C57 | Conn machine close; `Model/CloseRace.lean`: any number of Close, Connect, Disconnect, Join and Leave goroutines, one map access per step | exact log of Close; invariant, progress measure and bound over all interleavings (C57); refutations of "exactly once" with a Leave or a Disconnect under way |
| C24-C26 | handshake part of the Conn machine; session for C24 | invariants over all session runs; refuted for native-only sides, for IDs chosen by the client, for the order across types |
| C27, C29, C30 | interleaving machine of askers, reader and channels | invariant; negations with witness |
| C28 | in-callback Ask reads the next payload | negation with witness, partial when the next payload is the answer |
| C31 | interleaving machine of `waiterOnce` | negation (lost wake-up, double close), partial invariants |
| C32 | interleaving machine of `process(es)` | negation and partial |
| C33 | Conn machine with connect gate | negation (reader blocked by gate), partial when the answer comes first |
| C34 | polling loop arithmetic | `t` never hits 0: negation for all rounds |
| C35, C36, C45 | server loop machine | invariants, negations for the select race |
| C37-C40 | server with many Conn machines | exact recipient theorem; negations for batch and slice reuse |
| C41, C42 | broadcaster machine | invariant; negation (loss and duplicate) |
| C43 | server loop serving batches | exact log |
| C44 | `Model/Locks.lean`: lock programs of the callback sites and the API calls, RWMutex with waiting writers | table computed by the model, lifted to all programs by a rank argument (`c44_safe_partial`) |
| C46 | Upgrade decision function | decision theorem |
| C47 | URL query to header function | refinement to a filter/append spec; the canonical names against an explicit list of header characters, by induction over the name and all 256 bytes (`c47_names`, `c47_letters`) |
| C48 | store functions and interleaving machine | refinement to a map; lost update refuted |
| C49 | wrapper over arbitrary exchanges | step theorems; Ask fallback with the lost message refuted |
| C50, C51 | redis/nats bookkeeping over an abstract broker | injectivity, collision negation, invariant |
| C52 | error classification over `GoErr` | decision theorem |
| C53 | GetConnections over assoc lists | membership theorem |
| C54 | `tryNamespace`, error answers | negation and partial |
| C55 | `genEmptyReplyToWait` | round trip |
| C56 | `GetNamespaces` and timeouts of handlers | decision theorem; refuted for JoinConnHandlers |
| C58, C59 | `Model/Bulk.lean`: the walk with the mutex held, and a machine of the call and the reader | exact result and callbacks (C58); exact condition under which the call can return (C59), refuted in general |
| C60 | `Model/Access.lean`: every entry point as its lock operations and accesses | lockset invariant over all nestings and interleavings; reachability of a race is an iff |
| C61 | the reader and `Ask` of `Model/Conn.lean` | decision theorems that give the whole next state |
| C62 | the reader of `Model/Conn.lean`, two connections and their FIFO sockets (`Model/Session.lean`) | induction over the run; per operation: what is heard and held afterwards (`Proofs/Delivery.lean`), round trip of C01 |
| C63 | two connections and their sockets (`Model/Session.lean`) | composition: round trip of C01, the answer of C54, the routing of C61, both directions; the callbacks of the answering side do not write (else the answer is one payload among theirs, `c63_answered`) |
| C64 | `Model/Struct.lean`: reflect values with their read-only flags, `isZero`, `getNonZeroFields`, the injected OnNamespaceConnect | structural induction over values; exact result and exact panics. Fails for unexported fields (`c64_hidden_refuted`: any unexported number, string or pointer field makes the first Connect panic), for IsZero methods of unexported fields or of an unusual type, for a preset NSConn, and for an IsZero that is true of a non-zero value |
| C65 | `resolveStructNamespace` over trees of embedded structs | exact for own fields; fails for promoted fields, which are read at `f.Index[0]` |
| C66 | the settings of a `Struct` and its cached events | induction over the calls |
| C67, C68 | `Model/Socket.lean`: both `ReadData` loops over timed frames | induction over the frames; the FIFO assumption of `Model/Session.lean` follows for readable text. Fails with gobwas for text that is not UTF-8 (C67), with gorilla for a peer that only pings (C68) |
| C69 | the mutex of `write`, frames in any number of pieces, any number of goroutines | invariant over all interleavings for messages; fails for the answers of gobwas's control handler, which writes without the mutex |
| C70 | the order of SetWriteDeadline and Lock in `write` | invariant over all timed runs; fails for gorilla, which sets the deadline before it waits for the mutex |
| C71 | `Model/WaitConnect.lean`: the loop beside the Conn machine | induction over all interleavings; fails to end on a closed connection and can return an NSConn that has left meanwhile |
| C72-C74 | `Model/Register.lean`: `On` over a heap of maps, `NewStruct`, `Marshal`/`Unmarshal` over arbitrary marshalers | induction over the calls; decision theorem; composition with C01. Fails for shared maps (C72), for structs without callbacks (C73) and for marshaling errors, which are sent as the body (C74) |
| C75 | `Model/ExchangeAsk.lean`: the start, the select and `NotifyAsk` of both exchanges over what the broker gets | exact result for every order of events; way back by the round trip of C01. Fails: no answer of a client is recognised (a consequence of C08), it is handled as a new event by the server; native answers; nats does not wait for its subscription |
| C76 | store and interleaving machine of C48 | exact set of outcomes: invariant for the bounds, a constructed schedule for every value in between |
| C77 | stamp, publishMessages and the write gate | equality with the fold of Write over the longest unskipped prefix; exact wire contents |
| C78 | session of two Conn machines over FIFO byte channels, any number of client calls in flight | invariant over all runs: each call in flight is in one of four places (in the upward channel, answered in the downward channel, in its mailbox), with the two sides related by the pending effects; `c78_clash_refuted` shows that the rule against clashing calls is needed |
| C79 | the sessions of C78; each plain Ask in flight carries the message it was made for, and each answer in the downward channel or in a mailbox the callback call (in the server's log) that produced it | the same invariant over all runs, with the reason for silence recorded when the server does not answer; `c79_badnamespace_refuted` shows that the ErrBadNamespace answer never leaves |
| C80 | the sessions of C78; the place of an event in the stream is the number of the payload | what a side does with payload number n does not depend on what the other side did after writing it: a run in which the writer stands still since then is itself a run (`freeze_client`, `freeze_server`), and the agreement of C78 applied to that run says who is connected and in the room at the moment of reading; `c80_reconnect_refuted` shows the one way an event is lost without a Disconnect |
| C81 | the sessions of C78; a step is enabled when `sstep` returns a state, which is none for a goroutine that hangs on a lock it holds | the invariant of C78/C79 extended by the namespaces that the events on the way to the client are about: behind an event of a namespace there is never the answer that lets the client into it (`Talk`, `Seen`, `After`), and every unanswered request has its refused answer in the server's log (`Dropped`); the end state follows from what is enabled. `c81_noisy_refuted` shows that the condition on forced leaves is needed. Progress is stated as the absence of stuck states: callbacks may emit for ever, so no bound on the number of steps exists |
| C82 | one connection for the single step, the session of C41 for the exchange of two | `c82_answer` from the exact next state of the event handler; `c82_endless` by induction over the rounds: the answer that one side writes is again an event that the other side handles (round trip of C01) |
| C83 | the sessions of C78; `Settling` are the steps of readers and returning calls | `work` decreases with every such step (`c83_bound`), by induction over the run: a payload read by the server puts at most one on the way back, one read by the client puts none; with C81 the end of a run is known (`c83_returns`), and `c83_settles` shows that it is reached. The condition on the client's callbacks is needed: `c82_endless` |
| C84 | the machine of C27-C30 (`Model/AskRace.lean`) | conservation: the places of a message number add up to one once it is read (`c84_place`), and the sequence of callback calls is increasing (`c84_order`); both by induction over schedules. `c84_lost` and `c84_returns` are the two halves of the last sentence |
| C85 | the machine of C31 (`Model/Latch.lean`) | four equivalences; one direction by invariants over all schedules (C31's for one waiter or one signal), the other by a schedule for goroutines at arbitrary positions |
| C86 | `Model/ServerLoop.lean` as for C35: the loop, `Upgrade`, `Close` of server and connections, one step per channel, map and atomic operation. | `c86_told`: the whole effect of receiving a disconnection. `c86_kept`: iff; one direction from `c35_refuted_stuck`, the other by bringing the loop back to its select (`loop_returns`), closing the connection and delivering its disconnection, from an arbitrary reachable state. `c86_leak`: iff; only-if by the invariant that a registered connection is in the map or dropped, if by a schedule built from an arbitrary reachable state, including a connection whose Upgrade is not called yet. `c86_count`: C35's counter against a count over all connections. |
| C87 | `Model/Poll.lean` as for C34: the loop round by round, with int64 arithmetic. | `c87_exact`: iff for every round and result against `pollStops`, by induction on the rounds. `c87_half`: when being closed counts. `c87_silent`: iff; the round is the solution of 15000000·m ≡ 10^10 (mod 2^64), by the inverse of 234375 modulo 2^58. |
| C88 | `Model/Message.lean`: `serializeMessage`, `deserializeMessage` and their helpers. | `c88_arrives`: iff; from the closed form `decode_encode` of sending and receiving, and for first fields with a separator from the fact that no received token or identity has one. `c88_native`: iff from C04. `c88_same_bytes`: iff; the frame is injective because no header field has a separator. |
| C89 | the sessions of C78, but both sides call; the answers of one side travel in the same stream as its own requests | one invariant, symmetric in the two sides (`Both`): the stream of each side is a sequence of requests, replies and events, every call in flight of a side is in its outgoing stream, in the other's outgoing stream as a reply, in a mailbox, or dropped by a socket, and the memberships differ exactly by what the other side did for calls that have not returned; the tokens of client and server differ by the prefix `$`, so that a request is never taken for a reply. `c89_clash_refuted`: without the rule about clashing calls the sides can disagree for ever |
| C90 | the two connections and the two ordered streams of Model/Session, sessions `BothRun` of C89, `Standstill` (no reader and no call of either side can go on) and `HeldBack` (a reader waits at the gate of a namespace for a Connect of its own side that has no answer) in Spec/Both | false: `c90_refuted` is a session in which the client's reader holds an event back that the server emitted before its Disconnect had returned, while the answer to the client's own later Connect is behind that event; `c90_stuck`: such a wait never ends, whatever else happens; `c90_rest_partial`: this is the only way: a session that stands still is either held back like this or has nothing left to do |
| C91 | `redisStep`, `redisOffers`, `natsStep`, `natsOffers`, `redisChannel`, `natsSubject` (Model/PubSub) | matching is specified by inductive relations on the text of patterns and subjects (Spec/Match) and shown equivalent to the model's matchers; redis from the invariant of C50/C51, nats by induction over the actions after the connection was added, with the set of entries later actions will remove |
| C92 | Conn machine | right induction over the run with a frame relation for everything but the handshake's own steps; the spec is a fold over the payloads read (first mark, payloads before it), independent of the machine |
| C93 | the sessions of C90; `RuledRequests` adds that no write is in a namespace that its side is leaving, `SettlingBoth` are the steps without the applications, `workBoth` counts what is left, in Spec/BothRule | `c93_not_held`, `c93_rest`, `c93_bound`, `c93_returns`, `c93_settles`: invariant `Ears` over all ruled sessions: every event on the way to a side, and one its reader holds back, finds its namespace connected, or a Connect of this side accepted by an answer that is read before it; then a measure that every settling step lowers. With the session of `c90_refuted` an example shows which step breaks the rule |
| C94 | Model/Net.lean: the loop of Model/ServerLoop.lean together with one session of Model/Session.lean per connection; the loop publishes a batch to a session or closes it, a session that closes its connection tells the loop | every run of the whole is projected to a run of the loop and to runs of the sessions; C43 gives what is offered, C77 what is handed over, C62 what is heard; joined by induction over the run |
| C95 | Model/Conn.lean; the ledger is Spec/Ledger.lean, a fold over the log of callbacks | invariant over the step machine (Proofs/Ledger.lean): inside a step the ledger is even with the maps, one entry ahead or one behind, each function restores it; `c95_forged` and `c95_failed` show the two conditions are needed |
| C96 | Model/Conn.lean; a panic and a lock taken twice set `hung`, `Ruins` in Spec/Robust.lean says that an enabled operation does not get to its end | `hung` is traced through every function of the connection (Proofs/Robust.lean), with the invariant that a connected NSConn carries the name of its namespace; `c96_needed` gives a halt for each excluded call, `c96_native` is an equivalence |
| C97 | Model/AskRace.lean (the interleaving model of Ask, reader and Close) | Props/AskFate.lean `c97_reader`, `c97_conn`, `c97_lost`, `c97_why`, `c97_client`, `c97_server`, `c97_server_why`, `c97_next`; spec Spec/AskFate.lean (`MayReturn`, `ReaderStuck`, `PastReceiving`, `AllRead`, `SharesToken`); invariants and runs in Proofs/AskFate.lean |
| C98 | Model/Broadcaster.lean (broadcaster.go step by step, slices read and written at once); Spec/Receive.lean (`Receivable`, `SeriallyReceivable`, `Serial`) | invariant that relates what a connection has got, or is about to get, to the number of swaps of the channel and of writes of `messages`; for the other direction a schedule for each sequence, by induction on the sequence |
| C99 | Model/Dial.lean (Dial, the reader until Dial returns, the latch of Model/Latch.lean between them) | invariant of the two goroutines over the latch (Proofs/Dial.lean), provenance of errors (Proofs/DialSource.lean), verdict by the first answer and safety of waiting in time (Proofs/DialResult.lean); exactness by a continuation from every state that is not lost and by preservation of lost states |
| C100 | Model/ServerLoop.lean | preservation of the four conditions by every step, and for the converse a schedule from every state: the loop back to its select, the connection registered, a Server.Close made and served (`Props/CloseExact.lean`); survivors by induction on the calls that wait |
| C101 | Model/Conn.lean | case analysis of the handlers (`Spec/Answer.lean` has the table, `Props/Answer.lean` the theorems): the lemmas of C15, C17, C18, C19 and C82 give the frames of each case, closing is never undone, and no token contains the separator because it is the first field of a split frame |
| C102 | Model/Process.lean | one invariant per gate over counts of goroutines and the number of calls of Start (`Props/GateExact.lean`), a schedule from every state for the positive half, preservation by every step for the negative half |
| C103 | Model/Setup.lean | uniqueness of the cut and of the trimmed piece, induction over the options (`Props/Setup.lean`) |
| C104 | Model/Setup.lean | case analysis over the configuration against a separate table of defaults (`Props/Setup.lean`) |
| C105 | Model/Setup.lean | induction over the sequence of calls (`Props/Setup.lean`) |
| C106 | the sessions of C93; `RuledUp`, `RuledDown` say which payload an emitted event is, `Fate` what may become of it, in Spec/EmitBoth | `c106_up`, `c106_down`, `c106_held_up`, `c106_held_down`: the invariants `Both` and `Ears` of C89 and C93 at the moment the event is read, the exact handling of one message (C17, C32), and that no other step moves a reader that waits |
| C107 | the sessions of C93; `EventRun` notes what each side has emitted, `AllThere` says where it all is, in Spec/Order | `c107_up`, `c107_down`: induction over the run, with the invariants of C89 and C93 and with a count of the Connects of a side to a namespace (at most one, `Tally.Once`), so that the connect gate is closed whenever an event comes too early; `c107_rest`, `c107_delivers`: with C93, at rest all of `AllThere` is what was heard; `c107_emitted`: the write gate; `c107_rule_needed`: a run with a second Connect in which an event is lost |
| C108 | Model/Conn with the small-step calls and the held reader; `CanOpen`, `CanOpenAlone`, `HasAnswer`, `ComesBack` in Spec/Revive | `c108_gate`, `c108_gate_alone`, `c108_returns`: for the if-direction the steps are given (answer, resume, wake) and shown to be possible; for the only-if-direction an invariant (`Revive.Lost`, `Revive.GateLost`) is kept by every step that the reader does not make, and while it holds the reader makes none |
| C109 | Model/Broadcast; `batchFor` in Spec/Slice is the list that the statement describes | `c109_sent`: the marks of a history are computed once (`Slice.stamps`), then induction over the slice with the membership fixed while the connection is open; `c109_name`, `c109_conn`: the two marks in terms of the history |
| C110 | Model/WaitConnect; `glances` lists what the loop met, `FirstReason` names the first reason, in Spec/WaitExact | `c110_exact`: the goroutine is a fold over its glances (`run_fold`), and an invariant over the list of glances says where it is and that no reason came yet (`WaitExact.After`); `c110_settled`: both directions by the loop on a fixed state |
| C111 | Model/Handler; `IsCalled` says that the table of events has an entry with the method | `c111_called` from the exact table (`c12_struct`, `c12_dynamic`); `c111_none`, `c111_prefix`, `c111_trim` by the exact names, with the fact that no system event has an underscore inside |
| C112 | Model/ServerLoop; `Look` marks the step of a schedule at which the loop looks at the connection | `c112_look`, `c112_once`: induction on the schedule, the loop passes the look once (`Gone.to_look`, `Gone.no_return`); `c112_exact`: the step taken there, then `Gone.from_exch` and `left_for_good`; `c112_same`, `c112_none` follow |
| C113 | Model/Exchange, Model/ExchangeAsk (`shipAsk`: an Ask of a shipped exchange from start to result); `Relayed` in Props/Relay says who is asked with what | `c113_ask`: induction over the tree of exchanges, with two lemmas on appending relays; `c113_failed`: induction over the broker's events; `c113_shipped` combines them; `c113_empty` computes the payload |
| C114 | Model/Register: `On` over a heap of maps; `SharesMap`, `LastShared` in Props/Shared say what is shared and which call is the last | `c114_on`: induction over the calls; one call keeps the sharing and changes exactly the namespaces of the map (`Shared.one`); `c114_shares`, `c114_events` likewise; `c114_nil`: it panics exactly on a nil map |
| C115 | Model/Timeouts (the calls, over numbered structs, servers and connections), Model/Socket; `handlerTimeouts` and `MadeBy` in Props/Timeouts | `c115_server`, `c115_upgrade`, `c115_dial`: an invariant over the calls (`Times.Kept`) and that what was made stays; `c115_gives_up`: with a timeout every read returns and consumes a frame or fails (`Times.loop_ends`), without one C67; `c115_joined` combines them |
| C116 | Model/LockCalls: the goroutines of Model/Locks with callbacks that make calls about any connection, with writes that fail; the machine of Model/Locks. `safeX`, `usesX`, `StuckX` in Spec/LockCalls | `c116_safe`: connections are closed one after the other and a write looks at `closed` before it takes a lock, so locks of connections are taken in the order of closing, an order that grows with the run (`LockCalls.Fine`, `fine_grow`, `all_done`); the rooms of another namespace are the exception, there the holder of the namespaces is unique (`Inv.alone`). `c116_table`: the same for one direction, a knot of at most two goroutines for every other entry. `c116_pair`: two connections that look each other up `c116_alone`: invariant over all schedules, safe or not (`LockCalls.Excl`). |
| C117 | Model/Conn with the single namespace "" and the single event OnNativeMessage; `ran`, `nativeOn`, `NativeReturns` in Spec/NativeOnly | `c117_ran`, `c117_panics`, `c117_calls`: the invariant `NativeOnly.NInv` of open states (reader idle, no Ask, only the empty namespace) and for each operation its exact effect on the log (`NativeOnly.does`), then induction over the run |
| C118 | Model/Reconnect: `Header.Get` after the URL parameters, `strconv.Atoi` with its fast path and `ParseInt`/`ParseUint`; `Number` in Spec/Reconnect says which texts are numbers, by an inductive relation on digits | `c118_tries`: induction over the digits for both loops, the fast path gives the same as the slow one; `c118_was`, `c118_range` follow |
| C119 | Model/ExchangeCast: `redisBroadcast` composes `stamp` (Broadcast), `psPublish`, `redisOffers` (the broker) and `psDeliver` for every offer; `psReceive` takes any list of offered payloads | `c119_received`: induction over the offers with the decoding of C88 and the write gate of C13; `c119_redis` adds C50/C91 for what is published and offered, `c119_except` who is left out, `c119_panics`, `c119_native_only` |
| C120 | Model/Struct `resolveStructNamespace` with reflect's breadth-first `FieldByNameFunc`; Spec/StructNs says by index paths which field the selector means (`Selects`) | `c120_exact`, `c120_none`: invariant that each level of the search lists all paths of one length once, by induction over the depth |
| C121 | Model/Conn, the request handlers and `finish`; Spec/Turn `Goes`: a history as one list of calls, writes, results and notes, where a callback may add its own writes after its call | `c121_connect`, `c121_disconnect_server`, `c121_disconnect_client`, `c121_join`, `c121_leave_server`, `c121_leave_client`, `c121_answer`, `c121_event`, `c121_call_connect`: composition of the histories of the parts, forced leave by induction over the rooms |
| C122 | Model/Conn for each side, Model/Message for the wire between them; Spec/Verdict: `decision` (what the asked side makes of the request), `Swallowed` (refusals that come back without an error), `Round` (request handled, answer read, call resumed) | `c122_answer`: the table of C101 composed with the decoding of its frames; `c122_connect`, `c122_disconnect`, `c122_join`, `c122_leave`: that answer reaches the waiting call, then the step theorems of C15, C17, C18, C19 on both sides |
| C123 | The session of Model/Session with calls of both sides (Spec/Both), `publishMessages` of Model/Broadcast applied to its server-side connection; the client's places, `ForClient`, `PlaceFree` in Spec/Audience | `c123_written`: the two sides agree about a place that no call in flight is about (`c89_namespaces`, `c89_rooms`), so the server's test selects by the client's records (`c37_recipient_partial`). `c123_heard`: the payload decodes to the event (`c62_emitted`), no Connect holds it back, and handling it fires it once (`heard_afterGate`) |
| C124 | `wstep` of Model/Socket: the mutex of `write` and the goroutine of `ReadData`, which writes its answers one after the other without the mutex; `Wireable` in Spec/Pieces speaks of the sequence only | `c124_exact`: an invariant over all interleavings one way, a schedule built piece by piece the other way; `c124_returns`: every step lowers the number of steps left, and the holder can always go on; `c124_all`, `c124_whole` follow |
| C125 | `Net` (the loop of Model/ServerLoop with a session per connection); `TownRun` in Spec/Town: every step of a session keeps to the rule of C89 | Every session of such a run is a run of its own (`Town.session`: publishing is a sequence of writes, `Server.Close` a close), so C89 gives `c125_agree`; `c125_everyone`: while the loop is at a broadcast only its own steps move it (`Town.visited`), then `c123_written` at the state in which the connection is visited; `c125_hears` lifts `c123_heard` |
| C126 | `marshal`, `unmarshal` (Model/Register) with the round trip of C01 | The relations `Marshals`, `Stands`, `Unmarshals` of Spec/Sent; cases (`c126_body`, `c126_result`, `c126_same`) and the round trip C01 (`c126_receives`) |
| C127 | Conn machine; `Later` and `MaySucceed` in Spec/Ended | A relation of states kept by all steps but those of the reader and the return of an Ask (`Ended.kept_other`, `Ended.grown_finish`), induction over the history; the converse builds the history (`Ended.gets`, `Ended.connects`, `Ended.joins`) |
| C128 | Conn machine; `Orphan`, `Answered`, `Tears` in Spec/Orphan | The relation `Neat` of the proof of C20, relative to the rooms already left without a namespace, is kept by every step but the return of an Ask (`Orphan.neat_op`); the three returns are computed (`Orphan.connect_iff`, `disconnect_iff`, `join_cases`) |
| C129 | `Net` with `ParadeRun` (Spec/Parade): every session keeps to the rules of C107, nothing is broadcast to a namespace for a connection that is itself leaving it; one event per call of Broadcast | Each session is a run of its own (`Parade.session`: a visit of the loop is a write or nothing), so C107 gives `c129_down`, `c129_up`, `c129_rest`; `c129_order` by an invariant over the loop's steps: what each connection was given is a sublist of the served calls, without the call in progress for connections still to come; `c129_given` from C123 |
| C130 | `Net` with `ParadeRun` of C129; `SettlingNet`, `Serving` and the measure `workNet` in Spec/Rest | Every settling step lowers `workNet` (`Rest.less`: C93 for a step of a session; a visit of the loop puts at most one payload into one socket and costs more than that) gives `c130_bound`; `c130_rest` from C93 and C129 and the invariant that a call of Broadcast waits or was served; `c130_settles` by induction over the measure: when no session can move, none is leaving a namespace |
| C131 | `Net`; `getConnections` and `getConnectionsByNamespace` over the registered connections in any order (`roster`, Spec/Roster) | C53 for the maps, C89 through `Town.session` for the agreement of each client with its connection, C130 for the calls that have all returned |
| C132 | `Net`; `comesBy` and `ApartRun` in Spec/Apart | Every step of the server moves the session by what comes to it (`Apart.one`), so the session is a function of what has come (`Apart.all`); `c132_step` by cases of the step |
| C133 | `LSt` of Model/ServerLoop, `Net` for the run with a client; `due` and `offered` in Spec/ServerLoop | A call is served once (`served_le`), and what is offered are the calls served while registered (`c43_offered`), so the registration at the moment of service decides (`Window.due_iff`); the window by the invariant `Placed`; both orders of the select are run; `c133_unheard` is a run of the whole server with a client |
| C134 | `Net`; the loop of Model/ServerLoop with the sessions of Model/Session | Both directions of `c134_tie` are invariants of the steps of the server (`NetOk.tie`, `Curtain.told`); `c134_closed` from C100 for the loop and C23 for a closed connection, lifted along the run; `c134_spared` as an invariant of the loop; `c134_survivor` is a run of two clients |
| C135 | `Net`, `getConnections` of Model/Broadcast; `Settled` in Props/ServerLoop, `roster` and `OwnId` in Spec/Roster | C35 and C86 for the loop, carried over to the sessions with `c134_tie`; `c135_later` by C86 along the run and the counts of `LPlace`; `c135_lost` is a run |
| C136 | `LSt` of Model/ServerLoop; `UnderWay` and `serverWork` in Spec/Wind | Every such step lowers `serverWork` (`Wind.less`, with the number of registered connections bounded by the number of connections); at an end, every other place of a goroutine has an enabled step |
| C137 | `Net`; `OwnStep` and `NothingNew` in Props/Dusk, `serverWork` in Spec/Wind | The server's own steps lower `serverWork`, also when they bring a broadcast to a connection that closes then, and no step of a session raises it (`Dusk.one`); the end from C136 and C135 |
| C138 | `Net`; `comesBy` in Spec/Apart, `Curtain.Hush` in Props/Curtain | As in C132, all that reaches a connection from outside is a broadcast or a `Close`, and both leave a closed one as it is (`Ghost.one`); induction on the run. The second part from `Curtain.quiet_run` |
| C139 | `LSt` of Model/ServerLoop; `story` and the grammar `Tale` in Spec/Tale | `c139_story`: induction over the steps, where the counts of `LPlace` say which event can be next; `c139_over` from it; `c139_each` builds a run for every story |
| C140 | `Net`; `ApartRun` in Spec/Apart, `batchesIn`, `shutsIn` and `isBroadcast` in Spec/Brought | Only the visit of a connection adds to what was offered (`Brought.offered_step`), the kind of a call never changes (`Brought.kind_stable`), and the loop is where the kind of its call says (`LCallAt`); induction over the run. `c140_shut` with `c134_tie` |
| C141 | `LSt` of Model/ServerLoop; `Told` and the grammar `Turns` in Spec/Turns | Induction over the steps with the turn that is under way (`Turns.Under`); that things happen for the first time from the counts of `LPlace` and `LCallAt`; `c141_each` builds a run for every sequence of turns |

## What the reading found

Each of these is a theorem (`_refuted`) unless marked with *.

* Wire: two different names can have the same escaped form (C02); an error with an empty text is lost (C05); a
  native message answers a `Reply` with its own body (C06); the mark of an exchange's token is added to the first byte
  instead of inserted (C08); an ID with `;` breaks the explicit sender (C09).
* Handshake: a client that opens with `A` and a name is known under that name (C25); an OnConnect that writes first makes
  its own later error be ignored (C24 says "or used the connection first"); payloads before the acknowledgement are
  handled in groups by type, and on a client never (C26); the readiness latch can lose a wake-up and close its channel
  twice (C31); a server-side Connect polls in 15 ms steps for 10 s, which it never hits, so it never gives up (C34).
* Membership: a local veto after the remote side accepted, a veto by `Reply` or with an empty text, a stale NSConn and a
  request whose context is done leave both sides with different memberships (C16); a room can be joined in a namespace
  that is no longer connected (C20).
* Asks: an Ask made while any callback of the connection runs takes the next message for its answer (C27, C28); Close does
  not wake Asks (C29); a late answer to `Server.Ask` blocks the reader for ever (C30); an event that comes before the
  answer of a Connect blocks the reader at the gate (C33).
* Close: `OnRoomLeft` and `OnNamespaceDisconnect` can fire twice, a namespace can stay connected for ever (C22, C23); on
  the server `OnNamespaceDisconnect` precedes the forced leaves (C21).
* Server: a connection closed early stays registered for ever (C35); an Upgrade under way survives `Server.Close`, a
  Close before the loop began is undone (C45); `continue` skips the exchange's OnDisconnect (C36).
* Broadcast: one skipped message of a batch hides the later ones (C38); the caller's slice is marked in place (C40); the
  default broadcaster loses, repeats and tears batches (C41, C42).
* Locks: most callbacks run with a lock held (C44); LeaveAll and DisconnectAll hold a mutex across a request whose answer
  needs it (C59); three reads are made without the mutex (C60).
* Exchanges: IDs and namespaces share a channel space (C50, C51); after a failing exchange the next one asks with the
  failing one's result (C49).
* Helpers: concurrent `Increment`s are lost (C48); JoinConnHandlers drops timeouts (C56); a trimmed method name can
  collide (C12).
* Controllers: an unexported comparable field of a dynamic controller makes the first Connect panic, because `isZero`
  calls it non-zero (reflect.go:55-58) and `Set` then refuses it (:293-295); an unexported `time.Time` panics at
  registration; an `IsZero` with no result, or one that is not a bool, panics because of the precedence at reflect.go:30;
  a preset NSConn field wins over the connection's own (C64). A promoted `Namespace` field gives the text `<T Value>`
  (C65). A matcher or injector set after the events were first built is ignored (C66, `c66_settings`).
* Sockets: gobwas checks text for UTF-8 and an event body may hold any bytes, so an Emit of a non-UTF-8 body as text ends the
  connection of a gobwas receiver (C67); a ping does not extend gorilla's read deadline (C68); gobwas's answer to a ping is
  written by the reader without the mutex, so that it can tear a message if the library writes a frame in more than one piece
  (C69; how many pieces it uses is not in the repository); with gorilla the time that a write waits for the mutex counts (C70).
* WaitConnect without a deadline never returns on a connection that is closed (C71). On for one namespace registers for every
  namespace that has the same Events map (C72). NewStruct takes a struct without any callback (C73). A value that cannot be
  marshaled is sent as the text of its error, which the receiver cannot tell from a value (C74, documented).
* A Server.Ask through an exchange is never answered by a neffos client: the token has no mark, so the server connection
  handles the answer as a new event with its own callback, and if that replies too, both sides go on answering each other
  (C75). With nats an answer that is faster than the subscription is lost (C75).
* C78: two concurrent Connect calls of a client for the same namespace both succeed; the second answer replaces the NSConn of the first, so rooms joined through the first are forgotten by the client while the server keeps them (`c78_clash_refuted`).
* C79: `tryNamespace` (conn.go:583-597) answers a message for a namespace that is not connected by writing it back with ErrBadNamespace, but `Write` goes through `canWrite`, which refuses any message for a namespace that is not connected (conn.go:852-866); so nothing is sent and an Ask that crosses a Disconnect waits until its context ends (`c79_badnamespace_refuted`, and the example in Props/AskMany.lean).
* C80: the gate that holds events back while a Connect is in flight (process.go:63-83, conn.go:583-584) is released once and for all when the first Connect of the namespace returns. After Connect, Disconnect, Connect, an event that the server emits right after accepting the second Connect is dropped when the client reads it before its second Connect has stored the NSConn (`c80_reconnect_refuted`).
* C82: conn.go:466-479 writes a message back whenever the callback returned an error, also when nobody asked and when the message was itself such an answer. Two sides whose callbacks both return errors (or Replies) for an event therefore keep sending it to each other for ever.
* C84: an Ask made while a callback runs starts a goroutine that reads the socket (conn.go:968-976). If the Ask gives up because of its context, the goroutine stays and takes the next message, which then is neither handled nor returned: an event of the other side is swallowed (`c84_swallowed`).
* C85: `c85_blocked` says which waits of C31's lost wake-up never return. In the library one goroutine waits at a time (the reader on the server, Dial on the client), so that only the lost wake-up can occur there; a server that sends the payload `M` makes the client's reader a second waiter.
* C89: C89: a Join completes when the goroutine that called it runs, not when its answer is read. If the other side leaves that room in the meantime, the Leave is handled before the Join is completed (the client is not in the room yet, so it answers at once), and then the Join adds the room: both calls succeed and the client is in a room that the server has left (`c89_clash_refuted`; conn_namespace.go).
* C90: an event that a side emits in a namespace while its own Disconnect of it is in flight can reach the other side after that has left the namespace and begun to connect to it again. The gate of `tryNamespace` (conn.go:583-597) then blocks the reader until the Connect has its answer, which only this reader could read. The Connect hangs until its context ends, and so does the connection. (Only the first Connect of a namespace on a connection opens the gate, see C32.)
* C96: A callback for OnRoomLeave or OnRoomLeft that closes the connection, or writes to a room of its namespace, deadlocks the reader when the server disconnects the client from the namespace: forceLeaveAll runs it with roomsMutex held (conn_namespace.go:146-162).
* C99: Dial can hang with an honest server. `waiterOnce.wait` checks `ready` and then swaps `locked`; an answer that is handled between the two marks the latch ready, finds `locked` unset and does not close the channel, so Dial blocks for ever although the connection is open and acknowledged (`c99_lost_honest`). A server that sends an M makes Dial return a client without an ID though no A was sent (`c99_mark`), or hang at a closed connection (`c99_mark_lost`).
* C100: A connection whose Upgrade passed its check before Server.Close and which the loop registers after it stays open for ever: the second Server.Close does nothing because closed is set (`c100_survives`, `c100_close`).
* C101: An Ask for a room of a namespace that the other side has not connected is never answered, and an Ask of an event whose callback returns nil is never answered: in both cases the asker waits for its own timeout (`c101_iff`).
* C102: The second Connect of a namespace on the same connection jams its gate for good: Done ends one Start only, so a reader held there never goes on, and with it no message is read any more (`c102_pass`, `c102_rest`).
* C103: With(nats.Options{Servers: ...}), which the documentation recommends, appends an empty address to the servers and drops NoEcho (`c103_with`).
* C104: The password and the timeout are not passed to radix.NewCluster, so the topology of a cluster that wants a password cannot be had (`c104_new`, `c104_password`); a topology without a node panics in the pool (`c104_dial`).
* C105: A printer without any of the three methods is accepted by EnableDebug; the panic comes from the next Debugf, while a handler is being built, or from the next EnableDebug (`c105_panic`).
* C107: The connect gate is opened by the first Connect to a namespace that returns and never closed again (`unlocker.Done` in process.go). A client that disconnects a namespace and connects to it again loses the events that the other side emits between accepting the second Connect and its return (`c107_rule_needed`); on the first Connect the reader holds them.
* C108: Two concurrent Connects to one namespace and an event of that namespace that comes before the answers lose the reader for ever: the counter of the gate is 2 and only the first Done counts (process.go:62-68). After that no call that waits for the reader ever returns unless its context ends, whatever arrives (`c108_gate` and the examples beside it).
* C109: The exact form of C37 to C40: a mark of an earlier Broadcast stays in the slice, and the first message that is not for a connection hides the rest of the batch from it.
* C118: ReconnectTries keeps the value of Atoi when it reports an error: a client that sends twenty nines followed by anything has 2^63-1 tries (server.go:335, `c118_tries` and the example beside it).
* C119: Through an exchange Exclude(id) and a Room as the first argument of Broadcast leave out no one, since the ID is not serialized (`c119_except`). A connection for native messages only gets a published frame raw, with the identity `neffos(0x…` of the sender in it, and is not subscribed to the empty namespace, so a broadcast that reaches it without an exchange does not with one (`c119_native_only` and the example beside it).
* C122: C15 is false as stated: a server whose OnNamespaceConnect returns a Reply or an error with an empty text refuses, but Connect returns the namespace (`c15_refuted_empty_error`, `c15_refuted_reply`); C122 says exactly when.
* (*) A message with event OnNativeMessage is echoed raw when its handler fails, which lets a peer choose the raw payload.

## Not modelled

The websocket libraries below `ReadData` and `write` (what they return for a frame is an input of `Model/Socket.lean`), TLS/HTTP, JSON (the default marshaler is any function), reflection beyond method names and the struct controllers of `Model/Struct.lean`, goroutine scheduling
fairness, memory model below sequential consistency (except where a race is the subject: C41, C60), real time (the
clock is an oracle), the redis and nats client libraries (an abstract broker stands for them; their constructors are oracles
in `Model/Setup.lean`), what the debug printer does with a line.

How a Go map's `range`, a `select`, `sync.RWMutex`, `sync.WaitGroup` and channels behave is written into the models by
hand from the language specification and the standard library.

## Trusted base

* Lean's kernel (`vcheck` replays every module in it).
* Axioms: at most `propext`, `Classical.choice` and `Quot.sound`; no theorem uses `sorryAx`, `Lean.ofReduceBool` or an
  axiom of this project. `axioms.txt` lists what `#print axioms` says for every theorem of the manifest.
* The reading of the Go code: each definition of `Model/` cites the lines it stands for, each file lists its
  simplifications.
* The English statements of `properties.jsonl` against the Lean statements: the specifications in `Spec/` and the
  examples beside the theorems are there to make this checkable.
