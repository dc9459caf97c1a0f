{"id": "C01", "title": "Wire round trip", "statement": "Serializing a Message and deserializing the bytes on the other side gives back the same Namespace, Room, Event, Body, error text, no-op flag and wait token, whatever bytes the body holds, provided the three names survive escaping and the wait token is one the library can generate.", "quantifier": "all messages, all body bytes, all names that satisfy the exact escape condition of C02, all wait tokens without a separator", "why_tests_cant": "The body and names range over all byte strings; tests try a dozen literals and miss separators, replacement tokens and empty fields in combination.", "anchors": ["message.go:Serialize", "message.go:serializeOutput", "message.go:DeserializeMessage", "message.go:deserializeInput"]}
{"id": "C02", "title": "Names survive escaping, exactly when", "statement": "A Namespace, Room or Event name reaches the other side unchanged. The exact condition under which this holds is: the name contains neither the replacement text '@%!semicolon@%!' nor the text '@%!semicolon;'. For every other name the receiver sees a different name, and two different names can become the same name on the wire.", "quantifier": "all byte strings used as a name", "why_tests_cant": "It is an if-and-only-if over all byte strings; the overlap of the replacement text with itself is found only by reasoning about every position.", "anchors": ["message.go:escape", "message.go:unescape", "message.go:messageFieldSeparatorReplacement"]}
{"id": "C03", "title": "No header injection from names, body or error text", "statement": "Whatever bytes are in the Namespace, Room, Event, Body or error text, they cannot change how any other field of the message is decoded by the receiver.", "quantifier": "all messages with arbitrary attacker-chosen names, bodies and error texts", "why_tests_cant": "Injection safety is a statement about all byte strings.", "anchors": ["message.go:serializeMessage", "message.go:serializeOutput", "message.go:deserializeInput"]}
{"id": "C04", "title": "Payload classification", "statement": "DeserializeMessage never fails: a payload is reported invalid exactly when it is empty or has fewer than six separators while native messages are not allowed; it is a native message with Body equal to the whole payload exactly when only native messages are handled or native messages are allowed and there are fewer than six separators; otherwise it is decoded as a neffos message.", "quantifier": "all payloads and both native-mode flags", "why_tests_cant": "All byte strings; tests check four payloads.", "anchors": ["message.go:DeserializeMessage", "message.go:deserializeInput"]}
{"id": "C05", "title": "Errors cross the wire", "statement": "If an event callback returns an error that is not a Reply, the other side's Message.Err (and the error returned by its Ask) has exactly the same text and the message carries no body; if the text matches a registered known error the receiver gets that very error value, the first registered that matches.", "quantifier": "all error texts, all registries of known errors including dynamic resolvers", "why_tests_cant": "Quantifies over all texts and all registries; the empty error text is the case that breaks it.", "anchors": ["message.go:serializeOutput", "message.go:resolveError", "message.go:RegisterKnownError"]}
{"id": "C06", "title": "Reply replaces only the body", "statement": "If an event callback returns Reply(b), the other side receives a message with the same Namespace, Room, Event and wait token, body b and no error.", "quantifier": "all replies b and all incoming messages that were themselves received from the wire", "why_tests_cant": "All bodies and all messages.", "anchors": ["event.go:Reply", "event.go:isReply", "message.go:serializeOutput", "conn.go:handleMessage"]}
{"id": "C07", "title": "Wait-token decision", "statement": "A received message is treated as an answer candidate exactly when its token is non-empty and, if it starts with '$' (asked by a client), only by client-side connections; a token generated by a client-side Ask is therefore never mistaken by the server for an answer, and ClearWait clears the token exactly when one is set and the message has no explicit sender.", "quantifier": "all tokens, both connection sides", "why_tests_cant": "All strings, all sides.", "anchors": ["message.go:IsWait", "message.go:ClearWait", "message.go:genWait"]}
{"id": "C08", "title": "StackExchange ask token is recognised on the way back", "statement": "When a server asks through a StackExchange, the answer of the client is recognised as coming from a stackexchange Ask, so that the asker is notified.", "quantifier": "all wait tokens the server can generate", "why_tests_cant": "Quantifies over all tokens; the repository has no test of it.", "anchors": ["message.go:genWaitStackExchange", "message.go:DeserializeMessage", "conn.go:handleMessage", "server.go:Ask"]}
{"id": "C09", "title": "Explicit sender identity survives the exchange", "statement": "The explicit sender mark put on a broadcast message by Broadcast(conn, ...) is recovered unchanged by every server instance that receives the message through a StackExchange, and it never appears in what a client receives.", "quantifier": "all connection IDs and all messages", "why_tests_cant": "All IDs (the ID generator is user code).", "anchors": ["message.go:serializeMessage", "message.go:DeserializeMessage", "server.go:genServerConnID", "server.go:isServerConnID", "conn.go:Write"]}
{"id": "C10", "title": "Event dispatch", "statement": "For an incoming event at most one callback runs: the one registered under exactly that event name, otherwise the OnAnyEvent one, otherwise none; its return value is the result.", "quantifier": "all event tables and all event names", "why_tests_cant": "All tables and names.", "anchors": ["conn_handler.go:fireEvent", "event.go:OnAnyEvent"]}
{"id": "C11", "title": "Joining handlers", "statement": "JoinConnHandlers(h1..hn) gives, for every namespace and event, the callback of the last handler that declares it, declares a namespace exactly when some handler declares it with non-nil events, does not depend on map iteration order, and leaves its inputs unchanged.", "quantifier": "all lists of handlers and all map iteration orders", "why_tests_cant": "All handler lists and iteration orders.", "anchors": ["conn_handler.go:JoinConnHandlers", "conn_handler.go:WithTimeout"]}
{"id": "C12", "title": "Struct handler event names", "statement": "A controller method named like a system event without the underscore is registered as that system event regardless of the matcher; any other method is registered under the name the matcher gives, or not at all when the matcher rejects it; the two shipped prefix matchers accept exactly the methods with the prefix and distinct methods never collide.", "quantifier": "all method names and matchers", "why_tests_cant": "All names.", "anchors": ["reflect.go:makeEventFromMethod", "conn_handler.go:EventPrefixMatcher", "conn_handler.go:EventTrimPrefixMatcher", "event.go:IsSystemEvent"]}
{"id": "C13", "title": "Write gate", "statement": "Conn.Write (and Emit, Room.Emit, Ask, Broadcast delivery) puts bytes on the socket only if the connection is open and it is not the explicit sender of the message and, for anything but namespace connect/disconnect, it is currently connected to the message's namespace and, if a room is set and the event is not a room join or left, currently joined to that room. Conversely such a message is always handed to the socket, exactly once, as its serialization.", "quantifier": "all connection states and all messages", "why_tests_cant": "All states and messages.", "anchors": ["conn.go:canWrite", "conn.go:Write", "conn.go:write"]}
{"id": "C14", "title": "Native messages", "statement": "When the only declared event is OnNativeMessage of the empty namespace, every non-empty payload, whatever its bytes, fires that callback exactly once with Body equal to the payload and nothing else happens; otherwise a native payload reaches a callback only if the empty namespace is connected.", "quantifier": "all payloads and all handler declarations", "why_tests_cant": "All payloads.", "anchors": ["conn.go:newConn", "conn.go:handleMessage", "message.go:deserializeInput"]}
{"id": "C15", "title": "Namespace connect is allowed only by both sides", "statement": "Connect(ns) returns a connected namespace only if both sides declare it and both sides' OnNamespaceConnect callbacks returned nil; when it fails because of a declaration or a callback neither side becomes connected; when it succeeds both sides are connected and each side's OnNamespaceConnected fired once, after its OnNamespaceConnect.", "quantifier": "all callback behaviours, all prior histories of the connection", "why_tests_cant": "All histories and callback behaviours.", "anchors": ["conn.go:askConnect", "conn.go:replyConnect", "conn.go:notifyNamespaceConnected"]}
{"id": "C16", "title": "Membership agreement", "statement": "Whenever no request of a client is in flight, the client and its server-side connection agree on the set of connected namespaces and, per namespace, on the set of joined rooms.", "quantifier": "all histories of connect, disconnect, join, leave and emit calls with one outstanding client request and arbitrary callback vetoes", "why_tests_cant": "All histories; tests run one connect/join/leave.", "anchors": ["conn.go:askConnect", "conn.go:replyConnect", "conn.go:askDisconnect", "conn.go:replyDisconnect", "conn_namespace.go:askRoomJoin", "conn_namespace.go:replyRoomJoin", "conn_namespace.go:askRoomLeave", "conn_namespace.go:replyRoomLeave"]}
{"id": "C17", "title": "Room join", "statement": "JoinRoom adds the room only after the remote side accepted and the local OnRoomJoin returned nil; an incoming join request is accepted exactly when the namespace is connected and the room was joined already or OnRoomJoin returned nil; joining twice is idempotent: no second OnRoomJoin/OnRoomJoined.", "quantifier": "all states, rooms and callbacks", "why_tests_cant": "All states and callbacks.", "anchors": ["conn_namespace.go:askRoomJoin", "conn_namespace.go:replyRoomJoin"]}
{"id": "C18", "title": "Room leave and its veto", "statement": "Leaving a room that is not joined gives ErrBadRoom and has no effect; a server-side OnRoomLeave error keeps the client in the room on both sides and is returned to the client's Leave; on the client side an incoming leave request cannot be vetoed.", "quantifier": "all states, rooms and callbacks", "why_tests_cant": "All states and callbacks.", "anchors": ["conn_namespace.go:askRoomLeave", "conn_namespace.go:replyRoomLeave", "conn_room.go:Leave"]}
{"id": "C19", "title": "Namespace disconnect and its veto", "statement": "A server-side OnNamespaceDisconnect error keeps the namespace connected on both sides and is returned to the client's Disconnect; otherwise every joined room gets OnRoomLeave and OnRoomLeft with IsForced before the namespace is removed; on the client side an incoming disconnect cannot be vetoed; disconnecting a namespace that is not connected locally gives ErrBadNamespace and sends nothing.", "quantifier": "all states and callbacks", "why_tests_cant": "All states and callbacks.", "anchors": ["conn.go:askDisconnect", "conn.go:replyDisconnect", "conn_namespace.go:forceLeaveAll"]}
{"id": "C20", "title": "Membership invariants of a connection", "statement": "At any time a connection is connected only to declared namespaces, holds each namespace once and each room once, and is in rooms only of namespaces it is connected to.", "quantifier": "all histories of API calls and incoming payloads, including malformed and hostile ones", "why_tests_cant": "All histories of arbitrary payloads.", "anchors": ["conn.go:connectedNamespaces", "conn_namespace.go:rooms", "conn.go:handleMessage"]}
{"id": "C21", "title": "Lifecycle callback order", "statement": "For every namespace of a connection the callbacks come in order: OnNamespaceConnect before OnNamespaceConnected before any room or custom event callback before OnNamespaceDisconnect; for each room OnRoomJoin before OnRoomJoined before OnRoomLeave before OnRoomLeft; OnNamespaceConnected and OnNamespaceDisconnect alternate.", "quantifier": "all histories", "why_tests_cant": "All histories.", "anchors": ["conn.go:askConnect", "conn.go:replyConnect", "conn.go:Close", "conn_namespace.go:forceLeaveAll"]}
{"id": "C22", "title": "Close fires everything once", "statement": "Close force-leaves every joined room and then force-disconnects every connected namespace, each exactly once with IsForced and IsLocal set, empties all membership, and a second or concurrent Close has no effect: the close channel is closed once and the server is notified once.", "quantifier": "all connection states, any number of concurrent Close calls and every interleaving", "why_tests_cant": "All interleavings of any number of callers.", "anchors": ["conn.go:Close", "conn_namespace.go:forceLeaveAll"]}
{"id": "C23", "title": "A closed connection stays silent and empty", "statement": "After Close returned, the connection never writes an event message, Ask fails with a close error, and no namespace or room is ever connected again, so that each OnNamespaceConnected is matched by exactly one OnNamespaceDisconnect.", "quantifier": "all histories after Close, all interleavings of Close with the reader", "why_tests_cant": "All interleavings.", "anchors": ["conn.go:Close", "conn.go:canWrite", "conn.go:ask", "conn.go:replyConnect"]}
{"id": "C24", "title": "Handshake result", "statement": "If Dial succeeds the client's ID equals the server-side connection's ID and the server's OnConnect had returned nil (or had itself started using the connection); if OnConnect returned an error before using the connection, Dial returns an error with exactly that text and the server connection is closed.", "quantifier": "all OnConnect results, all IDs, all interleavings of the upgrade, the two readers and the dialing goroutine", "why_tests_cant": "All interleavings.", "anchors": ["conn.go:sendClientACK", "conn.go:handleACK", "server.go:Upgrade", "client.go:Dial", "waiter_once.go:waiterOnce"]}
{"id": "C25", "title": "A client cannot choose its server-side ID", "statement": "The ID of a server-side connection is the one given by the server's ID generator for its whole life, whatever the client sends.", "quantifier": "all sequences of client payloads", "why_tests_cant": "All payload sequences, including hostile first messages.", "anchors": ["conn.go:handleACK", "server.go:Upgrade", "conn.go:ID"]}
{"id": "C26", "title": "Messages before the acknowledgement", "statement": "Payloads that arrive before the connection is acknowledged are handled right after it, each exactly once and in arrival order.", "quantifier": "all payload sequences and both message types", "why_tests_cant": "All sequences; order depends on map iteration.", "anchors": ["conn.go:handleACK", "conn.go:handleQueue", "conn.go:startReader"]}
{"id": "C27", "title": "Ask gets its own answer", "statement": "An Ask returns a message only if the remote side sent that message with the token of this very Ask, whatever other Asks, answers and events are in flight on the connection; one answer completes at most one Ask.", "quantifier": "all numbers of concurrent Asks and all interleavings with the reader", "why_tests_cant": "All interleavings; the token is a clock reading.", "anchors": ["conn.go:ask", "conn.go:handleMessage", "message.go:genWait"]}
{"id": "C28", "title": "Ask inside a callback gets its own answer", "statement": "An Ask made while a callback of the connection is running returns the answer to that Ask.", "quantifier": "all message arrival orders", "why_tests_cant": "Arrival order is up to the peer and the network.", "anchors": ["conn.go:ask", "conn.go:startReader"]}
{"id": "C29", "title": "Ask returns when the connection closes", "statement": "An Ask in flight returns with an error when the connection is closed.", "quantifier": "all interleavings of Ask and Close, contexts with and without deadline", "why_tests_cant": "All interleavings.", "anchors": ["conn.go:ask", "conn.go:Close"]}
{"id": "C30", "title": "A late or duplicated answer is harmless", "statement": "An answer that arrives after its Ask gave up (context done), or a second answer to the same Server.Ask, does not stop the connection that delivered it from processing further messages.", "quantifier": "all arrival orders of answers relative to timeouts", "why_tests_cant": "All orders.", "anchors": ["server.go:Ask", "conn.go:ask", "conn.go:handleMessage"]}
{"id": "C31", "title": "Readiness latch", "statement": "Every wait on a connection's readiness returns once readiness was signalled, with the error given by the signal, however the two race; signalling never panics.", "quantifier": "any number of waiting and signalling goroutines, all interleavings", "why_tests_cant": "All interleavings; the failing ones have windows of nanoseconds.", "anchors": ["waiter_once.go:wait", "waiter_once.go:unwait"]}
{"id": "C32", "title": "Namespace connect gate", "statement": "While a local Connect(ns) is in progress incoming events of ns are held back, and they proceed once every Connect in progress has returned.", "quantifier": "any number of Connect calls and incoming messages, all interleavings", "why_tests_cant": "All interleavings.", "anchors": ["process.go:process", "process.go:processes", "conn.go:tryNamespace", "conn.go:askConnect"]}
{"id": "C33", "title": "Connect always completes", "statement": "A Connect(ns) whose answer the peer has sent returns, whatever other messages the peer or its broadcasts sent before that answer.", "quantifier": "all orders of incoming messages", "why_tests_cant": "All arrival orders.", "anchors": ["conn.go:askConnect", "conn.go:tryNamespace", "conn.go:replyConnect", "conn.go:startReader"]}
{"id": "C34", "title": "Server-side Connect gives up after ten seconds", "statement": "A server-side Connect to a client that never acknowledges returns with an error after at most ten seconds of waiting.", "quantifier": "all numbers of polling rounds", "why_tests_cant": "The loop is unbounded; no test waits for it.", "anchors": ["conn.go:Connect", "conn.go:syncWaitDur", "conn.go:maxSyncWaitDur"]}
{"id": "C35", "title": "Connection count", "statement": "GetTotalConnections equals the number of registered connections at all times, and when everything is settled the registered connections are exactly the open ones.", "quantifier": "all histories of upgrades and closes and all orders in which the server loop serves its channels", "why_tests_cant": "All schedules.", "anchors": ["server.go:start", "server.go:GetTotalConnections", "server.go:Upgrade", "conn.go:Close"]}
{"id": "C36", "title": "OnDisconnect exactly once", "statement": "OnDisconnect is fired at most once per connection, only for a connection that was registered, and exactly when it was ready without error or FireDisconnectAlways is set; the StackExchange's OnDisconnect is called for every removed connection.", "quantifier": "all histories and schedules of the server loop", "why_tests_cant": "All schedules.", "anchors": ["server.go:start"]}
{"id": "C37", "title": "Broadcast recipients", "statement": "A broadcast message reaches exactly the registered open connections that are connected to its namespace (and joined to its room if any), whose ID is To when To is set, except the excluded sender; each of them once.", "quantifier": "all sets of connections and messages", "why_tests_cant": "All populations and messages.", "anchors": ["server.go:publishMessages", "server.go:Broadcast", "conn.go:canWrite"]}
{"id": "C38", "title": "Every message of a batch is considered on its own", "statement": "Broadcast(except, m1, ..., mn) delivers to each connection exactly those of the n messages it would get if they were broadcast one by one, in order.", "quantifier": "all batches and connections", "why_tests_cant": "All batches.", "anchors": ["server.go:publishMessages"]}
{"id": "C39", "title": "Sender exclusion", "statement": "Broadcast(c, msg) with a *Conn or *NSConn excludes exactly that connection, even if others share its ID; with Exclude(id) or a *Room it excludes exactly the connections with that ID; with nil it excludes nobody. The same holds when a StackExchange is used.", "quantifier": "all populations, senders and messages, with and without StackExchange", "why_tests_cant": "All populations; message slices may be reused by the caller.", "anchors": ["server.go:Broadcast", "server.go:Exclude", "server.go:publishMessages", "conn.go:Is"]}
{"id": "C40", "title": "Broadcast does not depend on earlier broadcasts of the same slice", "statement": "The recipients of Broadcast(except, msgs...) depend only on except, msgs as the caller built them and the connections, not on earlier Broadcast calls with the same slice.", "quantifier": "all sequences of Broadcast calls", "why_tests_cant": "All call sequences with shared slices.", "anchors": ["server.go:Broadcast"]}
{"id": "C41", "title": "Default broadcaster: nothing invented, no going back", "statement": "With the default broadcaster, each connection only ever receives batches that were broadcast, never a batch older than one it already received, and a broadcast never blocks waiting for receivers.", "quantifier": "any number of concurrent broadcasters and receivers, all interleavings", "why_tests_cant": "All interleavings.", "anchors": ["broadcaster.go:broadcast", "broadcaster.go:waitUntilClosed", "server.go:waitMessages"]}
{"id": "C42", "title": "Default broadcaster: each batch once", "statement": "With the default broadcaster every connection that is registered before a Broadcast call and stays open receives each batch exactly once.", "quantifier": "all interleavings", "why_tests_cant": "All interleavings.", "anchors": ["broadcaster.go:broadcast", "broadcaster.go:waitUntilClosed", "server.go:waitMessages"]}
{"id": "C43", "title": "SyncBroadcaster: each batch once and in order", "statement": "With SyncBroadcaster every connection registered when the batch is served is offered every batch exactly once, in the order in which the Broadcast calls completed.", "quantifier": "all histories and schedules", "why_tests_cant": "All schedules.", "anchors": ["server.go:start", "server.go:Broadcast", "server.go:publishMessages"]}
{"id": "C44", "title": "Callbacks may use the API", "statement": "A callback may call the connection, namespace, room and server API (Room, Rooms, Namespace, Emit, Broadcast, Do) without blocking forever.", "quantifier": "all callback sites and API calls", "why_tests_cant": "A deadlock table over all pairs; tests use a few of them.", "anchors": ["conn_namespace.go:forceLeaveAll", "conn.go:Close", "conn.go:DisconnectAll", "conn_namespace.go:LeaveAll", "server.go:waitMessages", "server.go:start", "server.go:Do"]}
{"id": "C45", "title": "Server close", "statement": "After Server.Close every registered connection is closed, every later Upgrade is refused, and a second Close does nothing; no connection survives.", "quantifier": "all histories and schedules of Close with concurrent upgrades", "why_tests_cant": "All schedules.", "anchors": ["server.go:Close", "server.go:Upgrade", "server.go:Do"]}
{"id": "C46", "title": "Upgrade decision", "statement": "Upgrade answers in this order: refused when the server is closed, status-found for HEAD with an error that IsTryingToReconnect recognises, method-not-allowed for anything but GET, then the upgrader's error; only otherwise a connection is created, with the ID of the custom generator if given or else the server's.", "quantifier": "all requests and server states", "why_tests_cant": "All inputs.", "anchors": ["server.go:Upgrade", "server.go:IsTryingToReconnect"]}
{"id": "C47", "title": "URL parameters as headers", "statement": "Only URL parameters whose canonical name is the prefix X-Websocket-Header- followed by at least one character become headers, under the rest of the name with every value in order appended to the existing ones; every other header and parameter is untouched. Two names made of header characters only have the same canonical form exactly if they differ at most in the case of letters, with upper case at the start and after dashes; a name with another character is left as it is.", "quantifier": "all queries and headers", "why_tests_cant": "All queries.", "anchors": ["server.go:tryParseURLParamsToHeaders", "server.go:URLParamAsHeaderPrefix"]}
{"id": "C48", "title": "Connection store", "statement": "Get returns the last value Set for the key and nil otherwise; Increment and Decrement change an integer value by exactly one and restart from 1 or -1 otherwise; keys do not interfere; concurrent increments are not lost.", "quantifier": "all histories of store operations, all interleavings", "why_tests_cant": "All histories and interleavings.", "anchors": ["conn.go:Set", "conn.go:Get", "conn.go:Increment", "conn.go:Decrement"]}
{"id": "C49", "title": "Combined StackExchanges", "statement": "When several StackExchanges are used, each gets every OnDisconnect, Publish, Subscribe and Unsubscribe in registration order; OnConnect stops at the first error; Publish reports success only if all succeed; Ask tries the exchanges in order with the same request until one succeeds.", "quantifier": "any number of exchanges with arbitrary behaviour", "why_tests_cant": "All numbers and behaviours.", "anchors": ["stackexchange.go:stackExchangeWrapper", "server.go:UseStackExchange"]}
{"id": "C50", "title": "Direct messages are private", "statement": "With the redis or nats StackExchange a message with To set to a connection ID is delivered only to the connections with that ID.", "quantifier": "all connection IDs and namespace names", "why_tests_cant": "All names.", "anchors": ["stackexchange/redis/stackexchange_redis.go:getChannel", "stackexchange/nats/stackexchange_nats.go:getSubject"]}
{"id": "C51", "title": "Exchange delivery", "statement": "With the redis or nats StackExchange a broadcast message is offered exactly to the connections that are subscribed to its namespace, and subscription follows namespace membership: a connection gets messages of a namespace only between its connect and its disconnect.", "quantifier": "all histories of connects, subscribes, unsubscribes, disconnects and publishes", "why_tests_cant": "All histories.", "anchors": ["stackexchange/redis/stackexchange_redis.go:run", "stackexchange/nats/stackexchange_nats.go:run", "conn.go:notifyNamespaceConnected", "conn.go:notifyNamespaceDisconnect"]}
{"id": "C52", "title": "Disconnect error classification", "statement": "IsDisconnectError is true exactly for close errors and timeouts; a manual CloseError, EOF and unexpected EOF are always close errors; nil never is; a failed write closes the connection exactly when its error is a close error.", "quantifier": "all error values", "why_tests_cant": "All error shapes.", "anchors": ["event.go:IsCloseError", "event.go:IsTimeoutError", "event.go:IsDisconnectError", "conn.go:write"]}
{"id": "C53", "title": "Connection lookup by ID", "statement": "GetConnections and GetConnectionsByNamespace return only registered connections, under their own ID, and every registered (and connected) connection's ID is present.", "quantifier": "all populations, also with duplicate IDs", "why_tests_cant": "All populations.", "anchors": ["server.go:GetConnections", "server.go:GetConnectionsByNamespace"]}
{"id": "C54", "title": "A refused request is answered", "statement": "When a side refuses an incoming request because the namespace is not connected there, or because the callback returned an error, the asking side's Ask is answered with that error.", "quantifier": "all states and messages", "why_tests_cant": "All states.", "anchors": ["conn.go:tryNamespace", "conn.go:handleMessage", "conn.go:canWrite"]}
{"id": "C55", "title": "Answers always decode as answers", "statement": "The empty answer written for a request with a non-empty token w received from the wire is always decoded as a valid message with no error, no body and no names, and its token is w exactly when w carries no stackexchange mark and is not a server connection identity, as holds for every token an Ask generates.", "quantifier": "all tokens that can be received", "why_tests_cant": "All payloads.", "anchors": ["message.go:genEmptyReplyToWait", "conn.go:writeEmptyReply", "message.go:DeserializeMessage"]}
{"id": "C56", "title": "Handler timeouts", "statement": "The read and write timeouts given with a handler (WithTimeout, Struct.SetTimeouts) apply to the connections created with it, also when the handler is joined with others by JoinConnHandlers.", "quantifier": "all handlers, all joined lists and all iteration orders", "why_tests_cant": "All handler lists.", "anchors": ["conn_handler.go:getTimeouts", "conn_handler.go:JoinConnHandlers", "conn_handler.go:WithTimeout"]}
{"id": "C57", "title": "Concurrent closes act as one", "statement": "Of any number of concurrent Close calls at most one does anything. It fires, for exactly the namespaces connected at the moment it took the mutex, OnRoomLeave and OnRoomLeft once for each room and then OnNamespaceDisconnect once, while nobody else can change the set of connected namespaces; then it tells the server, closes the close channel and closes the socket. In every interleaving with connects, disconnects, joins and leaves these three happen at most once, and exactly once when all calls returned. No call waits for ever.", "quantifier": "any number of goroutines in Close, Connect, Disconnect, JoinRoom and Leave (and in the answers to them) of one connection, all interleavings, all callback results", "why_tests_cant": "All interleavings of any number of callers.", "anchors": ["conn.go:Close", "conn_namespace.go:forceLeaveAll", "conn.go:askConnect", "conn.go:askDisconnect", "conn_namespace.go:askRoomJoin"]}
{"id": "C58", "title": "LeaveAll and DisconnectAll", "statement": "LeaveAll leaves the rooms one after the other, each with one request, OnRoomLeave and OnRoomLeft, until the first refusal, which it returns; every room after it is untouched; it returns nil exactly if no room is left over. DisconnectAll does the same with namespaces: request, OnRoomLeave and OnRoomLeft for each room, OnNamespaceDisconnect, unsubscription; a connection that handles native messages only is left alone.", "quantifier": "all sets of rooms and namespaces, all iteration orders, all outcomes of the requests and of OnRoomLeave", "why_tests_cant": "All iteration orders and all points of refusal.", "anchors": ["conn_namespace.go:LeaveAll", "conn.go:DisconnectAll", "conn_namespace.go:askRoomLeave", "conn.go:askDisconnect"]}
{"id": "C59", "title": "LeaveAll and DisconnectAll return", "statement": "LeaveAll and DisconnectAll return when the other side has answered their requests, whatever else the other side sends in the meantime.", "quantifier": "all numbers of entries, all messages of the other side in all orders, all interleavings of the call and the reader", "why_tests_cant": "All interleavings with all incoming messages.", "anchors": ["conn_namespace.go:LeaveAll", "conn.go:DisconnectAll", "conn.go:handleMessage", "conn.go:ask"]}
{"id": "C60", "title": "Exactly three reads of shared state can race", "statement": "Of the shared maps and slices of the package (connectedNamespaces, rooms, waitingMessages of a connection and of the server, store, queue, process entries, connections of the server, subscribers of an exchange, messages of the broadcaster) two goroutines can access one at the same time, one of them writing, exactly in these cases: connectedNamespaces of a connection if NSConn.LeaveAll is called (its request is written with locked and read without a mutex), connections if GetConnections or GetConnectionsByNamespace is called (server.mu is not taken by the loop that writes it), messages if connections wait for broadcasts (the slice is read between the two locks). Two goroutines never write the same variable at the same time, and whoever writes one holds its mutex alone. A program that uses none of the three has no data race.", "quantifier": "for every number of goroutines, connections and NSConns, every nesting of the package's entry points in callbacks, every interleaving", "why_tests_cant": "The race detector reports races of the executions that happen; absence of races in every nesting and interleaving needs an invariant over the locks held.", "anchors": ["conn.go:845-885", "conn_namespace.go:127-163", "conn.go:1007-1042", "server.go:166-206", "server.go:585-615", "broadcaster.go:31-53", "process.go:21-37"]}
{"id": "C61", "title": "Answers are routed exactly", "statement": "A payload that an acknowledged connection reads and that carries a token of its own side's Asks goes to exactly one place, in this order: to the StackExchange if that forwarded it, to the Server.Ask with this token, to the connection's Ask with this token; only if none waits for it is it handled like a request or event. An Ask's channel keeps the first answer; a second blocks the reader until the Ask has taken the first. The Ask returns the first answer with the error it carries, once, and is forgotten. An Ask is registered under its token unless the reader is blocked inside a handler; then it gets the next payload, whatever that is, and nobody else does.", "quantifier": "all states of a connection, all payloads, all callbacks", "why_tests_cant": "All states and payloads; the channel-full and Server.Ask cases need exact timing.", "anchors": ["conn.go:416-450", "conn.go:936-1002", "message.go:195-210"]}
{"id": "C62", "title": "Events are delivered in order, at most once, and exactly once while connected", "statement": "From the moment a connection is acknowledged and has handled what came before, until it closes: the application messages for which callbacks are called are among those carried by the payloads its reader reads, in the order of the payloads, each at most once, with exactly the decoded content; a message that is held because its namespace is being connected is the last and stays in order. If the connection is connected to a namespace whenever its reader handles a payload, every application message of that namespace that is not an answer is handled exactly once. In a session of a client and a server-side connection this holds for each direction relative to what the peer's socket accepted. A Write that returns true puts exactly one payload into the socket, which carries the same namespace, room, event, body and kind; one that returns false puts none.", "quantifier": "all interleavings of the reader with calls of both sides, all callbacks, all payloads, all socket behaviours", "why_tests_cant": "Order and exactly-once hold for all interleavings, including messages that overtake a Connect in flight; tests sample a few.", "anchors": ["conn.go:324-345", "conn.go:416-492", "conn.go:906-913", "message.go:223-300", "conn_handler.go:39-49"]}
{"id": "C63", "title": "An Ask returns what the callback of the other side returned", "statement": "An Ask that goes out is exactly one payload, which the other side decodes to the same token, names, event and body. If the other side has the namespace and the room connected, its callback runs exactly once, for that request. If the callback returns nil, nothing is written and the Ask is not answered. If it returns a Reply or an error, exactly one payload is written with the token of the request; when the asker reads it, the Ask returns the body of the Reply and no error, or no body and an error that resolves to the one returned (no error if its text is empty). This holds for an Ask of the client and for an Ask of the server.", "quantifier": "all messages with safe names, all callback results, all reachable states of both connections with an idle reader on the asking side", "why_tests_cant": "It relates two connections, the codec and the waiting table for every message, error text and callback result.", "anchors": ["conn.go:936-1020", "conn.go:416-492", "conn_handler.go:39-49", "message.go:223-300", "conn_namespace.go:80-90"]}
{"id": "C64", "title": "Dynamic controllers: every NSConn gets its own copy", "statement": "A struct controller with a *NSConn field can be registered and connected without panic; the struct value made for an NSConn has that NSConn in the field, and in every other field the value of the registered struct.", "quantifier": "all struct values with any nesting of fields, arrays and IsZero methods, all orders in which the static fields are set", "why_tests_cant": "The set of struct types and values, and of user-defined IsZero methods, is infinite.", "anchors": ["reflect.go:16-98", "reflect.go:259-307"]}
{"id": "C65", "title": "Namespace of a struct controller", "statement": "The namespace of a struct controller is the result of its method Namespace() string if it has one, else the value of its string field Namespace, which may come from an embedded struct, else the empty namespace.", "quantifier": "all struct types with any nesting of embedded structs", "why_tests_cant": "All shapes of embedding are covered.", "anchors": ["reflect.go:106-135", "conn_handler.go:272-280"]}
{"id": "C66", "title": "Settings of a struct handler", "statement": "After any sequence of calls on a Struct: the matcher and the injector that count are those set last before the events were first built; the timeouts are those set last; the namespace is the one set last, or the controller's own if that is empty.", "quantifier": "all sequences of calls", "why_tests_cant": "Sequences are unbounded and the cached events make the order matter.", "anchors": ["conn_handler.go:117-194", "conn_handler.go:261-280"]}
{"id": "C67", "title": "A socket delivers the messages in order", "statement": "Without a read timeout, the messages that the peer wrote are read by ReadData in order, each once, with their bytes and type, whatever pings and pongs come between and however long the handling of a message takes, until the connection is closed or fails; then ReadData returns an error.", "quantifier": "both socket adapters, all sequences of frames, all pauses between the reads", "why_tests_cant": "Sequences of frames and pauses are unbounded; all byte strings are covered.", "anchors": ["gobwas/socket.go:69-108", "gorilla/socket.go:43-60", "conn.go:324-345"]}
{"id": "C68", "title": "Read timeout", "statement": "With a read timeout t a peer that leaves no gap longer than t between its frames, pings and pongs included, is not timed out; one that does is.", "quantifier": "both socket adapters, all timeouts, all times at which frames come", "why_tests_cant": "Real time cannot be enumerated.", "anchors": ["gobwas/socket.go:70-75", "gorilla/socket.go:44-49"]}
{"id": "C69", "title": "Frames are whole on the wire", "statement": "Whatever goroutines write to a socket at once, and in however many pieces a frame is written, the pieces of a frame are next to each other on the wire, and no writer waits for ever.", "quantifier": "any number of goroutines, any number of pieces per frame, all interleavings", "why_tests_cant": "The interleaving that tears a frame is rare and the number of goroutines is unbounded.", "anchors": ["gobwas/socket.go:31-46", "gobwas/socket.go:87-93", "gobwas/socket.go:140-151", "gorilla/socket.go:73-83"]}
{"id": "C70", "title": "Write timeout", "statement": "A write with timeout t is late exactly if the connection takes longer than t to accept the frame, counted from when the goroutine may write.", "quantifier": "both socket adapters, all timeouts, all interleavings of any number of writers at all times", "why_tests_cant": "Real time and the order of the goroutines cannot be enumerated.", "anchors": ["gobwas/socket.go:140-151", "gorilla/socket.go:73-83"]}
{"id": "C71", "title": "WaitConnect", "statement": "WaitConnect returns the NSConn of the namespace once the other side has connected this connection to it, or the error of its context when that is done; it ends when the connection is closed.", "quantifier": "all interleavings of the waiting goroutine with all operations of the connection", "why_tests_cant": "The loop polls; all interleavings are covered.", "anchors": ["conn.go:545-572", "client.go:40-47"]}
{"id": "C72", "title": "Registering with On", "statement": "After any calls of Namespaces.On and Events.On the callback of an event of a namespace is the one registered last for it, or else the one it had; other events and namespaces keep theirs.", "quantifier": "all maps, all sequences of calls", "why_tests_cant": "Sequences are unbounded and maps can be shared.", "anchors": ["conn_handler.go:52-80"]}
{"id": "C73", "title": "NewStruct takes controllers only", "statement": "NewStruct takes a *Struct and valid pointers to structs that handle some event, and panics for anything else.", "quantifier": "all arguments with any methods", "why_tests_cant": "The set of types is infinite.", "anchors": ["conn_handler.go:211-254"]}
{"id": "C74", "title": "Marshal and Unmarshal", "statement": "The receiver of a message whose body was made by Marshal gets the same value from Unmarshal, or an error if the value could not be marshaled; the methods of the value come before the defaults, and nil is a panic.", "quantifier": "all values, marshalers, unmarshalers and messages", "why_tests_cant": "All values and all custom marshalers are covered.", "anchors": ["message.go:124-186"]}
{"id": "C75", "title": "An Ask through an exchange", "statement": "A Server.Ask of a server with a redis or nats exchange publishes its request once and returns what the callback of the first connection that answers it returned, or the error of its context if that ends first.", "quantifier": "all requests, clock readings, connections, callbacks and orders of what the broker publishes", "why_tests_cant": "The order of subscription, request, answers and cancellation at the broker and all tokens cannot be sampled exhaustively.", "anchors": ["server.go:546-577", "stackexchange/redis/stackexchange_redis.go:254-282", "stackexchange/nats/stackexchange_nats.go:309-351", "conn.go:427-432", "message.go:212-246"]}
{"id": "C76", "title": "What concurrent increments leave", "statement": "If n goroutines each call Increment (or Decrement) once on the same key, the value afterwards is the value before, or 0 if that was not an int, plus (minus) some number from 1 to n, and every such number occurs in some interleaving.", "quantifier": "all n, keys, stored values and interleavings", "why_tests_cant": "The set of outcomes over all interleavings of any number of goroutines cannot be enumerated by running.", "anchors": ["conn.go:186-194", "conn.go:219-237", "conn.go:252-269"]}
{"id": "C77", "title": "Exactly what a broadcast hands to a connection", "statement": "Broadcasting a slice any number of times leaves on its messages, of each of the two kinds of marks (the sender's ID; the sending connection), the last one. Of a batch a connection is handed exactly the messages before the first that carries its ID as the sender or is addressed to another ID; of these it writes exactly those that the write gate lets through, in order, each once; if a failing socket closes the connection meanwhile, the first of them up to then.", "quantifier": "all batches, marks, earlier broadcasts of the slice, reachable connection states and socket behaviours", "why_tests_cant": "All combinations of marks, addressees, membership and socket failures in batches of any length cannot be sampled.", "anchors": ["server.go:436-456", "server.go:503-531", "conn.go:860-913"]}
{"id": "C78", "title": "Both sides agree while many calls are in flight", "statement": "A client makes any number of Connect, Disconnect, JoinRoom, Leave and Ask calls at a time, no two of which are about the same room or about the same namespace when one of them is about the namespace itself, while both sides emit; the callbacks are as assumed for C16 (refusals have a text and are no Replies, the client does not refuse what the server accepted), names survive escaping and no call is cancelled. Then at every moment both sides are connected to the same namespaces and have joined the same rooms, except those that a call in flight is about; and each call, whatever else is in flight and in whatever order the answers are taken, either succeeds on both sides or returns the server's error with both sides unchanged. Without the rule against clashing calls this is false.", "quantifier": "all configurations and callbacks meeting the assumptions, all numbers and interleavings of calls, deliveries, emits and closes", "why_tests_cant": "Interleavings of unboundedly many concurrent calls and their answers cannot be enumerated.", "anchors": ["conn.go:416-490", "conn.go:603-820", "conn.go:936-1004", "conn_namespace.go:100-323"]}
{"id": "C79", "title": "Every Ask returns what the other side's callback said, with any number of calls in flight", "statement": "In the sessions of C78, whatever else is in flight and in whatever order answers arrive and are taken: an Ask of the client that returns an answer returns what a callback of the server returned for exactly that message (same token, namespace, room, event and body): the body of its Reply, or the error that its text stands for. An Ask whose answer has arrived can return at once. And when everything that was sent has been read, an Ask that still waits does so for one of these reasons: the server was not connected to the namespace when it read the Ask; the callback returned nil or there is none; the server is not in the room of the message; its socket did not take the answer. In particular the ErrBadNamespace answer that the reader writes for a namespace that is not connected is never sent, because the write gate refuses it.", "quantifier": "all configurations and callbacks meeting the assumptions of C78, all numbers and interleavings of calls, deliveries, emits and closes", "why_tests_cant": "Mixed-up or lost answers depend on interleavings of unboundedly many concurrent calls; a test samples a few schedules and cannot show that no other reason for a hanging Ask exists.", "anchors": ["conn.go:416-482", "conn.go:583-597", "conn.go:842-901", "conn.go:936-1004"]}
{"id": "C80", "title": "An event reaches the other side's callback exactly once, with any number of calls in flight", "statement": "In the sessions of C78, an event that was emitted for a namespace and put on the socket is read by the other side once, and: if the client emitted it, then the server is connected to the namespace and runs the callback of that event with that message, exactly once and nothing else, unless a Disconnect of that namespace was in flight when the client emitted, in which case the server may have left and then runs nothing. If the server emitted it, then a client that is connected to the namespace runs the callback exactly once and nothing else; a client that is not has a Connect of the namespace in flight and holds the event back, and only when a Connect of that namespace had already returned before may it drop the event instead. The event that is held back is that one, and when the reader continues its callback runs exactly once. Unless a call about the room is in flight, the reader finds itself in the room exactly if the emitter was when it emitted.", "quantifier": "all configurations and callbacks meeting the assumptions of C78, all numbers and interleavings of calls, deliveries, emits and closes, all positions of the event in the stream", "why_tests_cant": "Whether an event overtakes or is overtaken by the state change it depends on is decided by the interleaving; a test that passes has seen one interleaving, and the loss after a reconnect needs the reader to run between the arrival of the answer and the return of Connect.", "anchors": ["conn.go:416-482", "conn.go:583-597", "process.go:63-83", "conn.go:842-901"]}
{"id": "C81", "title": "Calls that are in flight together never wait for each other", "statement": "In the sessions of C78, with any number of Connect, Disconnect, JoinRoom, LeaveRoom and Ask calls in flight and whatever events are emitted meanwhile: a call that has its answer can return at once (a Disconnect, if the callbacks of its forced leaves do not use the connection: otherwise it deadlocks with itself). The client's reader, when it holds an event back for a Connect that is in progress, can either go on, or that Connect has its answer in hand and can return: the reader never waits for an answer that is still behind it in the stream, unless the server's socket did not take the answer. When nothing can be read, the reader cannot go on and no call can return, then everything that was sent has been read and every Connect, Disconnect, JoinRoom and LeaveRoom has returned; only plain Asks can be left, each for one of the reasons of C79.", "quantifier": "all configurations and callbacks meeting the assumptions of C78 whose forced-leave callbacks do not use the connection, all numbers and interleavings of calls, deliveries, emits and closes", "why_tests_cant": "A deadlock needs one particular order of an event, an answer and a resuming goroutine; its absence is a statement about all reachable states of unboundedly many concurrent calls.", "anchors": ["conn.go:416-482", "conn.go:557-581", "conn.go:605-672", "process.go:63-83", "conn_namespace.go:137-165"]}
{"id": "C82", "title": "What becomes of the error that the callback of an emitted event returns", "statement": "An event that reaches its callback is answered with exactly one message when the callback returned an error (or a Reply) and this side may write to the room, and with no message otherwise. It does not matter whether the event was asked or only emitted, nor whether it is such an answer itself. So, when the callbacks of both sides return errors for an event, one emitted event goes back and forth for ever: after any number of rounds it is on its way again and both callbacks have run once for each.", "quantifier": "all reachable connections and all messages for the single step; all pairs of configurations whose callbacks object, all connected sessions, all messages without a room and all numbers of rounds for the endless exchange", "why_tests_cant": "That an exchange never ends cannot be observed; that exactly one answer is written for every callback, message and state is a statement about unboundedly many runs.", "anchors": ["conn.go:466-479", "conn.go:457-465", "event.go:131-152"]}
{"id": "C83", "title": "Calls that are in flight together all return, in a bounded number of steps", "statement": "In the sessions of C78, when the sockets take everything, callbacks do not use the connection and those of the client return nil for events: from any state in which Dial has returned and both sides are open, with any number of calls in flight, at most 3u + 2d + c + h further steps are possible without the application, whatever the order in which readers and calls go on (u payloads on their way to the server, d payloads on their way back, c calls in flight, h an event held back). Every run of such steps that cannot go on has read all that was sent and has let every Connect, Disconnect, JoinRoom and LeaveRoom return; only plain Asks can be left, each for one of the reasons of C79. Both sides stay open.", "quantifier": "all such configurations and callbacks, all sessions of C78 in use, all schedules of the remaining steps", "why_tests_cant": "Termination under every schedule with unboundedly many concurrent calls is a statement about all infinite executions; tests see single finite ones.", "anchors": ["conn.go:324-345", "conn.go:416-482", "conn.go:941-1005", "conn.go:557-581", "conn_namespace.go:176-208"]}
{"id": "C84", "title": "Where every message that arrives ends", "statement": "On an acknowledged connection with any number of Asks (of the connection and of the server), after every schedule: each message that arrived is at exactly one place: unread, with the reader that decides about it, given to a callback, in the hands of exactly one Ask (its channel, the goroutine it started, or about to be returned), or returned by exactly one Ask. Callbacks are called in the order of arrival, at most once per message. A message in the hands of an Ask is lost - no callback will be called with it and no Ask will return it, whatever happens - exactly if that Ask has returned, is about to fail its write, or is about to return another message; otherwise the Ask can return it.", "quantifier": "all schedules of readers, Asks, their goroutines, contexts and Close; all messages", "why_tests_cant": "A message that is lost leaves no trace; losing one needs a context to end in a window between two goroutines.", "anchors": ["conn.go:316-346", "conn.go:416-482", "conn.go:936-1002", "server.go:548-577"]}
{"id": "C85", "title": "Exactly what the readiness latch can do", "statement": "For any number of goroutines that call wait and unwait on one latch: some schedule panics (second close of the channel) exactly if at least two wait and at least two unwait; some schedule lets a wait return before any signal exactly if at least two wait; the results a given wait can have are exactly the errors of the unwaits and, if at least two wait, nil; a wait that is blocked can still return exactly if the channel is closed, an unwait is under way, or an unwait is to come and the latch is not ready.", "quantifier": "all lists of goroutines, all schedules, all reachable states", "why_tests_cant": "Each of the bad schedules needs a switch between two atomic instructions; that none exists in the other cases is a statement about all schedules.", "anchors": ["waiter_once.go:16-70"]}
{"id": "C86", "title": "A closed connection stays registered for ever exactly if its disconnection overtook its registration", "statement": "In every interleaving of the server's loop, Upgrade, Server.Close, Do, Broadcast and Conn.Close: (1) at its select the loop can receive any disconnection that waits; it then drops exactly that connection if it is registered, and otherwise only discards the message. (2) A registered connection stays registered under every continuation if and only if the loop discarded its disconnection earlier. (3) For a connection whose disconnection was not discarded so far, some continuation discards it if and only if the loop has not registered the connection yet and its Upgrade is past the closed check or can still pass it. (4) When nothing is under way the counter equals the number of open registered-or-sent connections plus the ones whose disconnection was discarded.", "quantifier": "all reachable states of the loop, all connections, all schedules, all continuations", "why_tests_cant": "The leak needs the loop to choose the disconnect case while the connect case is ready as well, or the client to leave between the send and the receive; and that nothing ever removes the connection quantifies over all futures.", "anchors": ["server.go:167-207", "server.go:285-287", "server.go:345", "conn.go:1007-1040"]}
{"id": "C87", "title": "When exactly the wait of a server-side Connect ends", "statement": "The polling loop of a server-side Connect ends in the first round in which the connection is acknowledged (Connect goes on), or is found closed with at most five seconds left on the countdown (ErrWrite), or the countdown is at zero (deadline exceeded); in no other round and with no other result, for every behaviour of the client and any number of rounds, the int64 countdown wrapping around or not. Before the countdown wraps, being closed counts from the 334th round on (5.01 seconds) and not earlier. For a client that neither acknowledges nor closes, the countdown skips zero because ten seconds are no multiple of fifteen milliseconds; it hits zero for the first time in round 96076792050571248, after the wrap-around, more than 45 million years later.", "quantifier": "all sequences of acknowledged/closed observations, all numbers of rounds", "why_tests_cant": "A test can wait for some seconds; the round in which the loop gives up lies millions of years ahead, and that nothing else ends it is about all behaviours of the client.", "anchors": ["conn.go:494-533"]}
{"id": "C88", "title": "Which messages cross the wire unchanged, and which become the same bytes", "statement": "A message that is not native arrives with its token, sender identity, names, flags and outcome (body, Reply body, or error) if and only if its first field is a plain token or a server connection identity without a separator, its three names survive escaping, and its error, if any, has a text. A native message arrives if and only if it is not empty and the receiver is native-only, or allows native messages and the body has fewer than six separators. Two messages that are not native become the same bytes if and only if their first fields, their escaped names, their no-op flags and their outcomes are the same.", "quantifier": "all messages, all registries of known errors, all receivers", "why_tests_cant": "Both directions of the equivalences range over all byte strings.", "anchors": ["message.go:252-335", "message.go:340-376", "message.go:418-469", "server.go:268-274"]}
{"id": "C89", "title": "Client and server agree on membership while calls of both sides are in flight", "statement": "In every session in which both sides Connect, Disconnect, JoinRoom and Leave, each with any number of calls in flight, as long as no two calls in flight (of the same or of different sides) are about the same room, or about the same namespace when one of them is about the namespace itself: both sides are connected to the same namespaces and in the same rooms except those that a call in flight is about; when no call is in flight they agree about everything; and when a call of either side gets its answer, it either succeeds and both sides have moved, or it returns the error that the other side's callback (or table of namespaces) gave, as that error's text resolves on this side, and neither has moved.", "quantifier": "all runs of a client and a server connected by two reliable ordered streams, all interleavings of both readers, of both sides' calls and of their completions, all callbacks that refuse with a real error and write as Emit does, all names that survive escaping, with or without the server calling before the handshake has ended", "why_tests_cant": "requests of both sides cross on the wire, are answered in one order and completed in another; the number of interleavings grows with every call in flight and no test suite enumerates them", "anchors": ["conn.go:416-490", "conn.go:583-820", "conn.go:936-1004", "conn_namespace.go:100-323", "message.go:222-232"]}
{"id": "C90", "title": "Calls of both sides do not wait for each other for ever", "statement": "In a session in which both sides may have any number of Connect, Disconnect, JoinRoom and LeaveRoom calls in flight, as long as no two of them are about the same namespace or room, neither side ends up waiting for the other for ever: when neither reader can read or go on and no call of either side can return, then everything that was sent has been read, both readers wait for new payloads, and every call of either side has returned unless the other side's socket did not take its answer.", "quantifier": "all configurations with consistent callbacks, all sessions of any length with any interleaving of calls, reads and events of both sides, all states in which nothing can go on", "why_tests_cant": "a deadlock needs one particular interleaving of calls, answers and events of two processes; tests see only a few of the unboundedly many", "anchors": ["conn.go:416-490", "conn.go:577-602", "conn.go:608-680", "process.go:1-86"]}
{"id": "C91", "title": "How often the brokers offer a message, exactly", "statement": "For every history of the redis exchange, every prefix and every channel, a message published on the channel is offered to a connection exactly once for each distinct name, namespace it is subscribed to or ID it was added under and not unsubscribed from since, whose PSUBSCRIBE pattern matches the channel. For every history of the nats exchange it is offered once if the subject of its ID matches, plus once for every call of Subscribe with a valid and matching subject that was not undone, where only an Unsubscribe that is the next action about that connection and namespace undoes a Subscribe; a connection that was not added under a valid subject, or was removed, is offered nothing. Names may be anything, patterns and names with dots included.", "quantifier": "all histories, prefixes, names, IDs and channels", "why_tests_cant": "All names, among them the ones that are patterns of the broker, and all orders of Subscribe and Unsubscribe.", "anchors": ["stackexchange/redis/stackexchange_redis.go:151-225", "stackexchange/nats/stackexchange_nats.go:157-284"]}
{"id": "C92", "title": "The handshake state is a function of the payloads read", "statement": "While a connection that is not native-only is open, the first payload read that starts with M, A or H decides its handshake and nothing else does: without one the connection is not acknowledged, has the generated ID and keeps every non-empty payload in its queue by type in order; with A the connection is acknowledged, its ID is the rest of that payload, and the earlier payloads stay in the queues for as long as it is open; with M it has the generated ID and is either still unacknowledged with the earlier payloads queued and its reader waiting for OnConnect, or acknowledged with empty queues; with H it is closed. The wait ends exactly when the result of OnConnect is there; an error closes the connection. A native-only connection is acknowledged from the start, keeps its ID and queues nothing.", "quantifier": "all configurations, callbacks, socket behaviours, operations and their order, payloads of both types", "why_tests_cant": "The claim is about every interleaving of reads, calls, writes, OnConnect's end and closing, with every payload; a test sends a few payloads in one order.", "anchors": ["conn.go:105-140", "conn.go:300-397"]}
{"id": "C93", "title": "Calls of both sides in flight together all return when neither side emits in a namespace it is leaving", "statement": "In the sessions of C90, when in addition neither side emits in a namespace while a Disconnect of this namespace, of its own, is in flight, the sockets take everything, and callbacks do not use the connection and return nil for events: neither reader ever holds an event back for a Connect of its own side that has no answer. A session that stands still has read all that was sent, both readers wait for new payloads and every call of both sides has returned. From any state in which Dial has returned and both sides are open, at most 4r + 2p + c + h further steps are possible without the applications, whatever the order in which readers and calls go on (r requests on their way, p other payloads on their way, c calls in flight, h events held back); every run of such steps that cannot go on ends like this, such a run exists, and both sides stay open.", "quantifier": "all configurations with consistent callbacks, all sessions of any length with any number of calls of both sides in flight that keep to the rule, all schedules of the remaining steps", "why_tests_cant": "the absence of deadlock and the bound hold for unboundedly many interleavings of calls, answers and events of two processes; tests see single finite ones", "anchors": ["conn.go:416-490", "conn.go:577-602", "conn.go:608-680", "process.go:1-86", "conn.go:941-1005"]}
{"id": "C94", "title": "Broadcasts are heard by all clients in one order (SyncBroadcaster)", "statement": "With SyncBroadcaster, a client that stays in the places of the broadcasts (namespaces and rooms), with a working socket, hears every broadcast there that is for it exactly once, in the order in which the server's loop received the broadcasts. This order is the same for all clients. If the server sends two such clients nothing else in these places and the messages exclude neither, the two hear exactly the same sequence.", "quantifier": "for all numbers of clients, all callbacks and configurations, all interleavings of the server's loop with the steps of all sessions (calls, reads, writes, closes of other connections, Server.Do, Broadcast from any goroutine), all visiting orders of the map of connections, all batches, and all sets of places", "why_tests_cant": "Tests broadcast to a handful of connected clients in one schedule; the claim relates what several clients hear over all schedules of the loop, the sessions and the readers, and all iteration orders of the map.", "anchors": ["server.go:167-207", "server.go:436-456", "server.go:504-538", "conn.go:824-840", "conn.go:324-345"]}
{"id": "C95", "title": "An application that follows its callbacks knows its memberships", "statement": "Let an application keep a ledger from nothing but its callbacks: OnNamespaceConnected and OnRoomJoined add an entry, OnRoomLeft and OnNamespaceDisconnect remove one, except a server's OnNamespaceDisconnect that refuses a request of the peer. If the connection is not native-only, its namespaces have callbacks for these events (or OnAnyEvent) and the peer sends no message named _OnNamespaceConnected, _OnRoomJoined or _OnRoomLeft, then whenever no step is in progress the ledger lists exactly the connected namespaces, with their NSConn, and exactly the rooms each NSConn is in. This holds for any other payloads of the peer, calls, closes, callbacks that write or close, answers that never come and writes that fail; the only exception is a connection that is closed and on whose socket a write failed. Both conditions are needed: a forged _OnRoomLeft runs the callback while the membership stays, and a write that fails on the answer to a connect request closes the connection before OnNamespaceConnected is called.", "quantifier": "for every configuration, either side, every sequence of operations on one connection", "why_tests_cant": "The notifications and the map updates are spread over a dozen functions in conn.go and conn_namespace.go, with different orders on the two sides; a test observes a handful of sequences, while the claim covers all interleavings of requests, refusals, failures and closes.", "anchors": ["conn.go:603-815", "conn.go:1007-1040", "conn_namespace.go:146-320"]}
{"id": "C96", "title": "No payload and no call brings a connection to a halt", "statement": "On a connection that is not native-only, whatever was received, called, refused, closed or failed before: every payload that the reader reads, and every call of the API, gets to its end without a panic and without waiting for a lock that its own goroutine holds, provided that the callbacks of rooms that are left by force only write, not to rooms of the namespace that is being left, and only if the socket is not gone. Each of the three things that this condition excludes (closing, writing to such a room, a write that finds the socket closed) lets the server bring a client to a halt with one request to disconnect. On a native-only connection a payload brings the reader to a halt exactly if the only namespace was disconnected.", "quantifier": "for every configuration, either side, every reachable state of a connection and every operation, including arbitrary bytes from the peer", "why_tests_cant": "Tests send a few well-formed payloads; the claim is about all byte sequences in all states with all callbacks, and about locks that are only taken twice when a callback runs inside forceLeaveAll.", "anchors": ["conn.go:314-492", "conn.go:842-901", "conn.go:1007-1040", "conn_namespace.go:146-162", "message.go:277-293"]}
{"id": "C97", "title": "Which Asks can still be answered and which readers are lost", "statement": "For every interleaving of any number of goroutines in Conn.Ask and Server.Ask with the reader, Close, context cancellations and arriving messages, in every reachable state: (1) the reader goroutine makes no step in any continuation exactly if it has returned or is sending to an Ask that will not receive any more (it received, it gave up, or it can only fail its write because the connection is closed) and that Ask's channel has no room, that is to a Server.Ask, or to a Conn.Ask whose channel already holds a message; (2) while the reader is between two messages, a waiting Conn.Ask made outside a callback can still return a message in some continuation in which its context is not done exactly if a message is in its channel or the waiting table maps its token to its channel; if the table does not, Close has emptied it or another Conn.Ask was given the same token, so on an open client connection an Ask whose token no other Ask was given can always be answered; (3) a waiting Server.Ask can still return a message exactly if the server's table maps its token to it or the reader is sending to it; if the table does not, another Server.Ask was given the same token; (4) an Ask made inside a callback, which waits for the next message, can always return one, also after Close.", "quantifier": "All schedules of any length with any number of Asks, on either side; for each reachable state all continuations (for the claims that nothing can happen) or some continuation (for the claims that something can).", "why_tests_cant": "The negative halves say that no continuation whatsoever lets a goroutine return or the reader go on, and the positive halves must hold at every reachable state of unboundedly many goroutines; a test only observes one schedule and cannot tell a lost goroutine from a slow one.", "anchors": ["conn.go:316-346", "conn.go:416-450", "conn.go:936-1040", "server.go:548-577"]}
{"id": "C98", "title": "Exactly which batches the default broadcaster can bring to a connection", "statement": "Number the calls of broadcast in the order in which they write messages, from 0. With the default broadcaster a connection can get a sequence of batches exactly if the numbers never go down and before the batch p it gets at most p batches: it never gets more batches than were written and the batch p at most p + 1 times. If no call is made before the earlier ones have returned, it can get a sequence exactly if moreover from any batch p that it gets to a later one q it gets at most one batch more than the difference: no batch comes three times and the first never twice, but batches can be left out and others can come twice.", "quantifier": "for all numbers of calls and connections, all interleavings of their steps, and all sequences of batches (both directions: nothing else is possible, and each such sequence is reached by a schedule)", "why_tests_cant": "A lost or repeated batch needs a certain interleaving between the write of messages, the swap of the channel and the reader; tests do not control it, and cannot show that no other sequence occurs.", "anchors": ["broadcaster.go:17-53", "server.go:338-343", "server.go:458-468"]}
{"id": "C99", "title": "What Dial returns, and exactly when it waits for ever", "statement": "With a server that sends no payload starting with M, Dial returns a client only if the first payload that starts with A or H starts with A, and the ID of the client is what followed an A; it returns an error only if its own write failed, if reading failed before any such payload with that error, or if the first such payload starts with H, with the text behind it. Whatever the server sends, an error has one of these sources and neither goroutine panics. A client with only native messages never waits and never fails. From any state Dial can still return exactly if it is not at the channel of the latch while the reader has passed everything that could close it; from there it never returns, whatever is read, written or closed. If Dial is at the channel before anything is read, this never happens; once the verdict is out and Dial is not at the channel, six steps of its own suffice. The dialled URL starts with ws:// or wss://.", "quantifier": "for all payloads and read and write results and all interleavings of the steps of Dial and of the reader", "why_tests_cant": "Whether Dial hangs depends on the answer arriving between two adjacent instructions of Dial; a test never hits it on purpose and cannot show that no other interleaving loses the answer.", "anchors": ["client.go:69-99", "conn.go:294-397", "waiter_once.go:42-71"]}
{"id": "C100", "title": "Which connections survive Server.Close, exactly", "statement": "In every interleaving of the server's loop, Upgrade, Server.Close, Do, Broadcast and Conn.Close: (1) an open connection that was made is never closed by the server from some state on, whatever calls of Server.Close follow, if and only if closed is set, the loop has begun, no Server.Close waits for the loop to receive its action, and the loop is not running one with that connection still to visit. (2) An open connection can get into such a state without being closed by itself if and only if the loop has not registered it, or it is in one already; so a Server.Close that has set closed can return and leave an open connection open for ever if and only if the loop has not registered it yet. (3) Every connection registered when a Server.Close has set closed is closed when that call returns. (4) An Upgrade that waits before its check can still make a connection if and only if closed is not set or the loop has not begun.", "quantifier": "all reachable states of the loop, all connections and calls, all schedules, all continuations", "why_tests_cant": "The survivors need an Upgrade to be between its check and its registration while Server.Close runs, and that no later call closes them quantifies over all futures.", "anchors": ["server.go:167-216", "server.go:285-287", "server.go:345", "server.go:417-434", "conn.go:1007-1040"]}
{"id": "C101", "title": "Which requests are answered, exactly, and with what", "statement": "Let the reader handle a message that carries a token and is not marked as wanting no answer, and let the connection still be open afterwards. The reader writes, besides what the callbacks write themselves, exactly one answer or none. (1) A namespace connect or disconnect is always answered. (2) A room join or leave is answered if and only if the namespace is connected. (3) Any other event is answered if and only if the namespace is connected, its callback returned an error or a Reply, and the room is empty, or is joined here, or the event is OnRoomLeft. (4) The answer is the empty one (token and six separators) or the message itself with ErrBadNamespace, the error or the body of the Reply, as the table of the specification says from the state, the side and the verdict of the callback. (5) The answer starts with the token. (6) One of the four requests without a token, or marked as wanting no answer, is not answered and changes nothing.", "quantifier": "all configurations, all callbacks, all reachable states, all frames, both sides", "why_tests_cant": "The table ranges over every state of namespaces and rooms, every callback verdict and every frame; the silent cases are absences.", "anchors": ["conn.go:416-482", "conn.go:664-698", "conn.go:778-822", "conn.go:916-918", "conn_namespace.go:211-242", "conn_namespace.go:281-323"]}
{"id": "C102", "title": "What the connect gate does, exactly", "statement": "In every interleaving of any number of Connects and of readers that bring events of any namespaces, each map access, atomic operation and WaitGroup operation being one step: (1) a reader that has looked at the flag of a gate and not passed it can still pass it if and only if at most one Connect has ever called Start on that gate; a reader that has not looked yet always can. (2) A step panics if and only if it is a Start while another Connect is waking the waiters up, or the wake-up of a waiter on a gate on which two Connects have begun; so nothing panics while no gate has been begun on twice. (3) A reader that looks goes on at once if and only if one of the Connects that began on the gate has called Done; one that found none goes on if and only if at most one Connect has begun and none is before the Done of the WaitGroup, and is held otherwise. (4) A Connect is never blocked by a gate. (5) When nothing can go on, every Connect has returned and every reader has passed except those at a gate on which at least two Connects have begun.", "quantifier": "all numbers of goroutines and namespaces, all schedules, all gates that exist at the start", "why_tests_cant": "That a held reader never passes again quantifies over all continuations, and the two panics need particular interleavings of three goroutines.", "anchors": ["process.go:21-36", "process.go:64-83", "conn.go:584", "conn.go:604-607"]}
{"id": "C103", "title": "What the nats exchange is set up with", "statement": "For all default options, urls, option lists (nil ones among them) and answers of the nats library: NewStackExchange calls Connect if and only if no option fails, and then with exactly the options that the caller's options, applied in order to the defaults with the url (nats.DefaultURL if empty) and NoEcho set, have left, their Servers extended by the addresses that their Url lists: cut at every comma, white space removed at both ends, in order, never an empty list. It keeps exactly these options if Connect succeeds; its error is that of the first option that fails or else that of Connect. With(options) replaces all that went before it: the url argument and NoEcho are lost, and options without a Url get one empty address added to their Servers.", "quantifier": "all default options, urls, lists of options, answers of the library", "why_tests_cant": "The cut of the url and the order of arbitrary option functions range over infinitely many inputs.", "anchors": ["stackexchange/nats/stackexchange_nats.go:68-73", "stackexchange/nats/stackexchange_nats.go:86-155"]}
{"id": "C104", "title": "What the redis exchange is set up with", "statement": "For every configuration and every answer of the redis library: a connection of the pool is one dial over the given network (tcp if none), to the given address (127.0.0.1:6379 if none) or, if clusters are given, to a node that the cluster reports at that moment, any of which can be picked; with the password if there is one and with the given timeout, none if it is zero and 30 seconds if it is negative. It panics exactly when a cluster reports no node. The constructor asks for the topology exactly if clusters are given, before it makes the pool (10 connections if no number is given), and makes none if that fails; its error is that of the call that failed. The question for the topology carries the addresses alone: no password, network or timeout.", "quantifier": "all configurations, topologies, random choices and answers of the library", "why_tests_cant": "A cluster with a password or without nodes is not in the tests, and the claim is about every configuration.", "anchors": ["stackexchange/redis/stackexchange_redis.go:76-149"]}
{"id": "C105", "title": "Debug mode is set once and costs nothing before", "statement": "Over all sequences of calls of EnableDebug, Debugf and DebugEach: the printer is the one of the first EnableDebug, or a logger of its own if that was nil or a bool, and nothing changes it; before that no call does anything, not even call the function that computes the arguments. Afterwards every Debugf calls that function once if its one argument is such a function, and prints exactly one line by the first of Debugf, Logf, Printf the printer has. It panics if and only if the first EnableDebug was given a printer with none of the three; so does a second EnableDebug, and the first one does not. DebugEach calls a visitor of one or two inputs once for every entry of a map in the order of the range, panics with any other function unless the map is empty, and does nothing for anything else.", "quantifier": "all printers, all sequences of calls, all maps and visitors", "why_tests_cant": "The printer is global state set by the first of arbitrarily many calls.", "anchors": ["debug.go:28-45", "debug.go:65-90", "debug.go:103-137"]}
{"id": "C106", "title": "No event gets lost or runs twice with calls of both sides in flight", "statement": "In a session with any number of calls of both sides in flight that do not clash, in which neither side emits in a namespace while its own Disconnect of this namespace is in flight, and whose callbacks do not use the connection: an event that one side emitted, when the other side reads it, makes the callback of this event run there exactly once and no other, with the message that was emitted, if the reader is connected to the namespace. If it is not, then a Connect of the reader to this namespace is in flight which has been accepted, and the event is held back; only when an earlier Connect of the reader to this namespace had returned can it be dropped instead. A held event stays held through every step of the session until the reader goes on, and then its callback runs exactly once and no other. A Disconnect of the other side that is in flight makes no event get lost.", "quantifier": "all configurations of the two sides, all schedules of any length, all events and bodies, both directions", "why_tests_cant": "The event can meet every combination of calls in flight on both sides, in every order of the two pipes and of the returns of the calls.", "anchors": ["conn.go:416-482", "conn.go:583-597", "conn.go:603-661", "conn_handler.go:39-49", "process.go:21-83"]}
{"id": "C107", "title": "All events arrive, in order and once, while both sides call", "statement": "In a session with any number of calls of both sides in flight that do not clash, in which neither side emits in a namespace while its own Disconnect of it is in flight, neither side calls Connect again for a namespace after a Connect of its own to it has returned, and callbacks do not use the connection: at every moment at which both sides are open, the events that a side has emitted are, in this order, exactly those that were handed to the other side's callbacks, then the one that the other side's reader holds back, then those on the way; no event is lost, repeated or overtaken, and names, body and kind arrive as they were emitted. What counts as emitted is every Write that the connection may make. Whenever the readers and the calls cannot go on any more, all events of both sides have been delivered. Without the rule about a second Connect an event can be lost.", "quantifier": "all configurations of the two sides, all schedules of any length, all events and bodies, both directions", "why_tests_cant": "The claim is about the whole history of a session, under every interleaving of the emits, calls, reads and returns of the two sides.", "anchors": ["conn.go:416-482", "conn.go:583-597", "conn.go:603-661", "conn.go:852-913", "conn_handler.go:39-49", "process.go:21-83"]}
{"id": "C108", "title": "Which calls of a connection can still return, and which held readers can go on", "statement": "On a connection that is not native-only: a reader that holds back an event at the connect gate of a namespace can go on exactly if the counter of the gate is zero, or if no Connect to the namespace has returned yet and exactly one is on its way; in every other state nothing that ever happens to the connection, not even the end of every context, lets it go on. If no context ends, the one Connect must moreover have its answer already, or be the kind that reads its answer itself. On an open, acknowledged connection whose callbacks do not use it and whose socket takes every write, a call (Connect, Disconnect, JoinRoom, Leave, Ask) that has not returned can return without the end of its context exactly if it has its answer, or reads the next payload itself, or its token stands for it and the reader reads, or can get back to reading by itself: by passing the gate it is at, or by delivering the answer that it holds to a call which then returns, where that call must not be one that takes the same token out of the table.", "quantifier": "all configurations, all reachable states, all calls in flight, all continuations of any length", "why_tests_cant": "One direction says that no continuation whatever brings a call or a reader back; a test can wait only so long.", "anchors": ["conn.go:583-597", "conn.go:603-661", "conn.go:941-1004", "process.go:21-83"]}
{"id": "C109", "title": "Exactly what a connection is sent of a slice that is broadcast, however often it was broadcast before", "statement": "Without StackExchange, let a slice of messages go through any sequence of Broadcast calls, the last of which is handed to a server-side connection. The connection's socket is handed, in order and each once, of the messages before the first one at which the connection leaves the batch, exactly those that the write gate lets pass; all of them if the connection is still open afterwards, and otherwise a beginning of them. The connection leaves the batch at a message that has another ID in To, or whose from is the connection's ID, where from is the last non-empty String() that any call of the sequence was given. The gate lets a message pass if the connection is open and connected to the namespace (and room) or the event is a connect or disconnect, unless the Conn or NSConn that any call was given last is this connection and no later argument with an empty String() took it back.", "quantifier": "all configurations and sockets, all reachable states, all slices, all sequences of arguments", "why_tests_cant": "The claim covers every history of a slice, every position in it and every state of the connection.", "anchors": ["server.go:436-456", "server.go:504-538", "conn.go:842-913"]}
{"id": "C110", "title": "What WaitConnect returns, exactly", "statement": "Over all interleavings of WaitConnect with the steps of its connection: each round looks at the context, then at the namespaces, then at the acknowledgement. The call has returned r exactly if the first reason to return that its rounds met gives r. A reason is a context that is done at the start of a round, which gives its error; or a connection that is acknowledged at the end of a round in or after the first round that saw the namespace, which gives the NSConn seen in that first round, connected still or not. While nothing more happens to the connection and the context is not done, the call returns exactly if the connection is acknowledged and either the goroutine has seen the namespace before or it is connected now; a closed connection makes no difference.", "quantifier": "all configurations, namespaces, contexts and interleavings of any length", "why_tests_cant": "The result depends on the moments at which the loop looks; the claim is for every one of these interleavings and includes that the call never returns otherwise.", "anchors": ["conn.go:551-572", "client.go:40-47"]}
{"id": "C111", "title": "Exactly which methods of a struct controller are ever called", "statement": "For every struct whose methods have different names, and every matcher: a method is called by some event exactly if it has the type of a callback, is registered under an event name, and no later method (in the order of reflect) is registered under the same name; an NSConn field makes no difference. Without a matcher these are all methods that fit. With EventPrefixMatcher they are the methods that fit and have the prefix or the name of a system event. With EventTrimPrefixMatcher they are the same, except that of a method S with the name of a system event and a method called prefix + _ + S only the later one is called; no other two methods hide each other.", "quantifier": "all method lists, prefixes and matchers", "why_tests_cant": "The claim is for every set of method names and every prefix, and that no other pair of names collides.", "anchors": ["reflect.go:120-160", "reflect.go:176-254", "reflect.go:285-310"]}
{"id": "C112", "title": "What is fired for a removed connection, exactly", "statement": "For every connection that the server loop removes there is exactly one moment at which the loop looks at it. If it is then ready without error, or FireDisconnectAlways is set, OnDisconnect (if set) is fired for it once; otherwise it is not fired, not even if the connection becomes ready later. The StackExchange's OnDisconnect is called once if OnDisconnect was fired or is not set, and never otherwise. So with an OnDisconnect set the exchange is told of exactly the connections that it was fired for, and without one of exactly the removed ones.", "quantifier": "all configurations, any number of connections and callers, all schedules of any length", "why_tests_cant": "Readiness changes concurrently with the loop; that the one look decides for good is a claim over all schedules.", "anchors": ["server.go:175-192", "conn.go:331-345"]}
{"id": "C113", "title": "An Ask through several exchanges, exactly", "statement": "The Ask of combined StackExchanges asks them in registration order until one succeeds: the first with the request, every further one with the message that the one before it returned with its error; it returns what the last one asked returned. What a redis or nats exchange returns with an error is the empty message or an answer for the token that is an error. So with these only the first exchange gets the request with its token; for the empty message the next one publishes a message without token, names and event on the channel of the namespace with the empty name.", "quantifier": "all trees of exchanges, requests, tokens, results of the exchanges and orders of broker events", "why_tests_cant": "The claim covers every combination of exchanges, failures and answers, not a few mocks.", "anchors": ["stackexchange.go:102-110", "stackexchange/redis/stackexchange_redis.go:254-276", "stackexchange/nats/stackexchange_nats.go:309-340", "server.go:548-558"]}
{"id": "C114", "title": "On with maps that several namespaces share, exactly", "statement": "After any calls of Namespaces.On the callback of an event of a namespace is the one registered last for this event and for a namespace that had the same Events map at the beginning (itself included); without such a call it is the one it had. The calls keep which namespaces share a map: none starts to and none stops. Events.On registers for exactly the namespaces that have this map.", "quantifier": "all namespaces, events, callbacks, sharings of maps and sequences of calls of any length", "why_tests_cant": "Aliasing of maps has no bound; the claim is for every sharing and every sequence of calls.", "anchors": ["conn_handler.go:53-55", "conn_handler.go:70-77"]}
{"id": "C115", "title": "The timeouts of a connection, exactly", "statement": "Over all sequences of NewStruct, SetTimeouts, New, Upgrade and Dial: a server has the timeouts that its handler had when New was called, and its connections have these, whatever SetTimeouts is called with later; a client's connection has the timeouts that the handler had at Dial. A handler has those of its WithTimeout, those set last for its Struct, and none if it is joined or of another kind. The reader of a connection whose peer sends some frames and then nothing gives up in the end exactly if the read timeout is positive; so a connection made with joined handlers keeps a silent peer for ever.", "quantifier": "all sequences of calls of any length, all handlers, both socket libraries, all finite frames and handling times", "why_tests_cant": "That a later SetTimeouts never has an effect and that a reader never gives up are claims over all continuations.", "anchors": ["conn_handler.go:98-110", "conn_handler.go:177-182", "server.go:113-135", "server.go:329-330", "client.go:83-90", "conn.go:324-329"]}
{"id": "C116", "title": "Which calls of the API about which connection can block a callback for ever, exactly", "statement": "For every callback, every call of the API and whether it is about the callback's own namespace, another namespace of its connection or another connection: some schedule in which all other callbacks make safe calls only blocks the call for ever exactly if it is not one of these: any call from a callback that runs without a lock or while the payloads stored before the acknowledgement are handled; any but Do and the synchronous Broadcast from OnDisconnect and the function of Do; an Emit of a namespace or a room of any connection from the callbacks of Close; Room and Rooms of any namespace of the same connection from OnNamespaceDisconnect of Close; Room and Rooms of another namespace of the same connection from OnRoomLeave and OnRoomLeft of Close. If callbacks only make these calls, then every run comes to an end with everybody done, also when writes fail and close other connections from within callbacks. Whatever callbacks call, a goroutine that has one of the locks for writing is the only one that has it, for writing or reading.", "quantifier": "all callbacks, calls and targets; all schedules of any number of goroutines, connections and namespaces; failed writes nested to any depth", "why_tests_cant": "The safe half is about all interleavings of any number of goroutines; each of the others needs a schedule of its own.", "anchors": ["conn.go:842-901", "conn.go:1007-1040", "conn_namespace.go:99-162", "conn.go:737-822", "server.go:167-216", "server.go:422-468", "broadcaster.go:31-39"]}
{"id": "C117", "title": "A connection that handles native messages only, exactly", "statement": "Over all sequences of payloads, calls and answers of callbacks, as long as such a connection is open: the callbacks that have run are exactly one OnNativeMessage for each non-empty payload its reader has read, in this order, with the payload as the body; no other callback runs. No call waits for the other side: Connect, Disconnect, JoinRoom, Leave and Ask return at once and send nothing; Connect fails exactly for another namespace, Disconnect exactly if the empty namespace is not connected, Leave exactly for a room not joined, and Ask returns an empty message without an error. The empty namespace is connected unless a Disconnect has no Connect after it; a non-empty payload that is read while it is not connected makes the reader panic, and no other payload does.", "quantifier": "all runs of the connection, all callbacks, all payloads", "why_tests_cant": "Unbounded sequences of payloads and calls with arbitrary bytes; the panic depends on the whole history.", "anchors": ["conn.go:105-138", "conn.go:418-447", "conn.go:603-661", "conn.go:737-776", "conn.go:941-985", "conn_namespace.go:176-279"]}
{"id": "C118", "title": "The number of reconnection tries of a connection, exactly", "statement": "ReconnectTries of a server-side connection is the number in the first value of the request's X-Websocket-Reconnect header or, if the request has no such header, in the first value of the URL parameters named X-Websocket-Header-X-Websocket-Reconnect in any letter case: decimal digits with an optional sign, moved to the nearest number of 64 bits if it is too large or too small. A text that is no number gives 0, unless it begins with digits whose number does not fit into 64 bits unsigned, which count as such a number whatever follows them. WasReconnected says exactly whether the number is greater than zero.", "quantifier": "all requests: all headers, all URL parameters, all orders of visiting them, all texts", "why_tests_cant": "All texts of any length; the fast and the slow path of the conversion differ by length.", "anchors": ["server.go:229-253", "server.go:266", "server.go:333-336", "conn.go:273-275"]}
{"id": "C119", "title": "Exactly what a broadcast through an exchange writes to a connection", "statement": "With a redis exchange, Server.Broadcast publishes its messages up to the first one at which the broker fails, each on the channel of its To or else of its Namespace. A connection, of whatever server, gets from it exactly the frames of those messages that its write gate lets through, as text and without the identity of the sender, in the order of the messages, each as often as the connection has different subscriptions (its own ID and its namespaces) that match the channel; if a failing socket closes it meanwhile, the first of these frames up to then. A Conn or NSConn given as the first argument leaves out exactly that connection; Exclude(id) leaves out no one. It holds for messages that are not native and no errors and whose names and identity survive the wire. A connection for native messages only gets every payload that is offered to it as it is. The caller panics iff, before the broker fails, there is a message to a room of no namespace or one with both a sender and an Ask token.", "quantifier": "all reachable states of the connection, all subscription histories, all message lists, all failures of the broker and of the socket", "why_tests_cant": "Needs a broker and two servers; the number of copies depends on all the subscription patterns, the receivers on all states of the write gate.", "anchors": ["server.go:504-528", "stackexchange/redis/stackexchange_redis.go:182-195", "stackexchange/redis/stackexchange_redis.go:201-247", "conn.go:824-914"]}
{"id": "C120", "title": "The namespace of a struct controller, exactly", "statement": "The namespace that a struct controller declares is the result of its method Namespace() string if it has one. Otherwise, if the selector x.Namespace means in Go a field of kind string, at the least depth and alone there, it is the text of that field if the field is the struct's own, and the placeholder text of the embedded struct it comes through if it is promoted. Otherwise it declares none.", "quantifier": "all controllers, with any fields and any depth of embedded structs", "why_tests_cant": "All trees of embedded structs; the rule of shadowing and ambiguity depends on all fields at all depths.", "anchors": ["reflect.go:106-135"]}
{"id": "C121", "title": "The order of callbacks, answers and returns", "statement": "While the connection stays open: an accepted connect request runs OnNamespaceConnect, writes the answer, then runs OnNamespaceConnected and tells the StackExchange. An accepted disconnect request runs OnNamespaceDisconnect, the callbacks of the rooms, tells the StackExchange and writes the answer last on a server; on a client the rooms come first, then the answer, and OnNamespaceDisconnect is last. An accepted join runs OnRoomJoin and OnRoomJoined and writes the answer last. A leave runs OnRoomLeave and OnRoomLeft and writes the answer last on a server, and writes it between the two on a client. Any refusal or error is written after the callback that returned it. A call that gets a good answer runs its callbacks, then tells the StackExchange, and returns last. Nothing else happens in between but what the callbacks themselves write. A call to Connect runs the own OnNamespaceConnect before its request is written, and writes nothing if that returns an error.", "quantifier": "all configurations, all callbacks, all reachable states of a connection, all incoming messages and all calls in flight", "why_tests_cant": "A test sees the order of one run with one set of callbacks; the order between a callback and a write depends on no timing but must hold in every state and for every callback.", "anchors": ["conn.go:634-713", "conn.go:737-822", "conn_namespace.go:146-323", "conn.go:452-481"]}
{"id": "C122", "title": "What a call makes of the decision of the other side, and where the two sides then stand", "statement": "A pending Connect, Disconnect, JoinRoom or LeaveRoom whose request the other side has handled and whose answer has been read: the call fails with the error that the refusal's text stands for, unless there was no refusal, it was a Reply, or its text is empty; then the call goes on as if accepted, its own side changes (for a room, if its own callback agrees as well) and the call returns success. The other side has changed exactly if it did not refuse. So the two sides end apart exactly when the refusal was a Reply or had no text, or when the caller's own room callback refused.", "quantifier": "all configurations of both sides, all callbacks, all reachable states of both connections, all requests and answers", "why_tests_cant": "The outcome depends on the callback results and the states of two connections together; a test tries a few refusals, and none of those that the wire format loses.", "anchors": ["conn.go:634-713", "conn.go:737-822", "conn_namespace.go:146-323", "message.go:serializeMessage", "message.go:deserializeMessage"]}
{"id": "C123", "title": "Who hears a broadcast, exactly, by the records of the clients", "statement": "While calls of both sides of a session are in flight, none of them about the namespace and room of an event that is broadcast, the event is written to the connection exactly if its client is in the namespace, and in the room if it names one, by the client's own records, is not left out by the first argument of Broadcast and the message is not addressed to another; otherwise nothing happens to the connection. A client that has read everything before and whose reader is free hears the event next, once, with its namespace, room, event, body and kind; one that it is not for has nothing to read.", "quantifier": "all sessions with any number of calls of both sides in flight, all interleavings; all events, first arguments and addressees", "why_tests_cant": "The records of the client and of the server are kept by different processes; that they select the same recipients depends on every interleaving of calls before.", "anchors": ["server.go:504-538", "server.go:436-456", "conn.go:842-901", "conn.go:412-483"]}
{"id": "C124", "title": "Exactly which pieces of frames can be next to each other on the wire", "statement": "While any number of goroutines write messages to a gobwas socket and the reading goroutine answers pings, each frame in any number of pieces, a sequence of pieces can be on the wire exactly if the pieces of every frame are in order, each once and without a gap, and a piece of a frame comes only when all other frames of its kind (message or answer) that were begun are complete. So a message is never broken by a message nor an answer by an answer, while every way in which messages and answers break each other can happen. Every run is bounded and can always be completed, and the complete wires are exactly those of that form that have every frame whole.", "quantifier": "all numbers of goroutines and pieces, all interleavings, all sequences of pieces", "why_tests_cant": "The exact set of wires is about all interleavings, in both directions: none besides these happens, and each of these can.", "anchors": ["gobwas/socket.go:36", "gobwas/socket.go:70-107", "gobwas/socket.go:140-151"]}
{"id": "C125", "title": "Who hears a broadcast among all the clients of a server", "statement": "With any number of clients, calls of both sides of every session in flight and broadcasts with SyncBroadcaster, every open client agrees with the server about each namespace and room that no call of its session in flight is about. A broadcast of one event that the loop receives is offered to every registered connection before the loop goes on; when it is, it is written to the connection exactly if the client is in the namespace and room by its own records of that moment, is not left out and the message is not addressed to another, and nothing happens to any other connection by that step. A client that has read everything before and whose reader is free then hears the event next, once and with everything it says; one that it is not for has nothing to read.", "quantifier": "all numbers of clients, all interleavings of the loop, the callers and all sessions, all events, first arguments and addressees", "why_tests_cant": "Which clients hear an event depends on where each of many independent sessions is when the loop comes to its connection.", "anchors": ["server.go:167-207", "server.go:436-456", "server.go:504-538", "conn.go:842-901"]}
{"id": "C126", "title": "Exactly what a receiver makes of a marshaled value", "statement": "The body of Marshal(v) stands for what v is marshaled to, by its own Marshal method if it has one and else by DefaultMarshaler: the bytes, or the text of the error. For every value, every pair of marshalers and every pointer, inverse to each other or not, the message arrives without an error and Unmarshal gives exactly what the pointer's own Unmarshal method, or else DefaultUnmarshaler, makes of those bytes; two values, failed or not, are the same to a receiver exactly if they stand as the same bytes.", "quantifier": "all values with or without own methods, all marshalers and unmarshalers (as functions), all messages with safe names", "why_tests_cant": "Marshalers are arbitrary user code; a test picks some and usually only ones that are inverse and do not fail.", "anchors": ["message.go:147-171", "message.go:173-186", "message.go:238-320"]}
{"id": "C127", "title": "Exactly what a closed connection can still connect and join", "statement": "After Close, no call can begin that connects or joins. A step of a closed connection that connects a namespace or joins a room is one of a reader that has not ended, or the return of a Connect or JoinRoom of just that which began before and whose answer without an error has arrived. Once the reader has ended, a namespace can ever be connected again exactly if a Connect of it is waiting whose answer is there, or whose own goroutine is about to read it; a room only if a JoinRoom of it is, and exactly then if the callbacks return no error.", "quantifier": "all reachable closed states, all later histories of calls, answers and reads, all callbacks and sockets", "why_tests_cant": "The calls that wait when the connection is closed, and the order in which they return, are arbitrary.", "anchors": ["conn.go:603-662", "conn.go:941-1002", "conn.go:1007-1041", "conn_namespace.go:176-209"]}
{"id": "C128", "title": "Exactly how a room comes to be held without its namespace", "statement": "On an open connection, a step leaves an NSConn in a room while its namespace is not connected with that NSConn (and was not left so before) exactly if the room is held after it and the step is the successful return of a JoinRoom whose NSConn is by then not connected, or of a Connect of the same namespace with another NSConn, or of a Disconnect of the same namespace that began with another NSConn. No message of the other side, no callback, no beginning of a call and no failing call does it.", "quantifier": "all reachable states of a connection, all its steps, all callbacks, peers and sockets", "why_tests_cant": "It is about all interleavings of the calls of one connection with the answers to them; the three that matter are a few among unboundedly many.", "anchors": ["conn.go:603-662", "conn.go:737-776", "conn_namespace.go:176-209", "conn_namespace.go:82-96"]}
{"id": "C129", "title": "All clients of a server hear its broadcasts in one order", "statement": "With SyncBroadcaster, any number of clients, calls of both sides of every session in flight and events emitted on every connection at any time: what a client has heard, what its reader holds back and what is on its way make up exactly the events of its connection and the broadcasts that were for it, in the order in which they were put into its socket, none lost and none twice. The broadcasts among them are in the order in which the loop served the calls of Broadcast, each call once; so no two clients hear two broadcasts in different orders. When the loop comes to a connection, its client is given the broadcast exactly if it is for it by the client's own records of that moment. When a session comes to rest, its client has heard all of it.", "quantifier": "all numbers of clients and broadcasts, all orders of ranging over the connections, all interleavings of the loop, the callers and all sessions", "why_tests_cant": "The order in which each of many clients hears concurrent broadcasts depends on the interleaving of the loop with the callers and every session.", "anchors": ["server.go:167-207", "server.go:417-434", "server.go:436-456", "server.go:504-538", "conn.go:852-930"]}
{"id": "C130", "title": "A server comes to rest with all its clients", "statement": "With SyncBroadcaster, any number of clients, calls of both sides of every session in flight, calls of Broadcast waiting and events on the way: while the applications do nothing more, the loop, the readers and the calls can take only a bounded number of steps, a number that is computed from the state. They can always come to rest without a broadcast to a namespace for a connection that is leaving it, and when they cannot go on, the loop has served every call of Broadcast, every call of both sides of every session has returned, and every client and every connection has heard everything that was put into its socket.", "quantifier": "all numbers of clients and waiting broadcasts, all states reached in any interleaving, all schedules of the loop and all sessions", "why_tests_cant": "That every schedule of a server and many clients ends, and ends with nothing lost, cannot be seen from the schedules that happen to be run.", "anchors": ["server.go:167-207", "server.go:436-456", "server.go:504-538", "conn.go:852-930", "conn.go:1009-1100"]}
{"id": "C131", "title": "What a server says about who is connected and who is in a namespace, against the records of the clients", "statement": "With any number of clients and calls of both sides of every session in flight: GetConnections has every registered connection whose ID is its own under this ID, and nothing else; GetConnectionsByNamespace has such a connection, with its NSConn, exactly if its client is in the namespace by the client's own records, while no call in flight of that session is about the namespace; it lists nothing that is not registered. When the server has come to rest with its clients, this holds for all of them and every namespace, and every client has the rooms of its connection.", "quantifier": "all numbers of clients, all interleavings of the loop, the callers and all sessions, all orders of ranging over the map, all namespaces", "why_tests_cant": "Whether the answer fits the clients depends on where each of many independent sessions is at that moment.", "anchors": ["server.go:585-597", "server.go:604-614", "conn.go:565-585"]}
{"id": "C132", "title": "What the clients of a server do cannot change what another client does and hears", "statement": "What comes to a client and its connection are the steps of their own session, the broadcasts the loop brings to the connection, and its Close by Server.Close. If the same comes to a client in two runs, of two servers that treat this client alike, then the client and its connection are in the same state with the same history in both, whatever the other clients are, do and hear, however many they are and however the servers are configured for them. A step of another session, also one that closes its connection, changes neither what the loop is doing, nor which connections are registered, nor any call of Broadcast. Callbacks are taken to depend on their own connection only.", "quantifier": "all pairs of runs of all pairs of servers, all numbers of clients, all interleavings", "why_tests_cant": "It compares all runs that agree for one client with each other.", "anchors": ["server.go:167-207", "server.go:436-456", "conn.go:1005-1040"]}
{"id": "C133", "title": "A new connection misses exactly the broadcasts the loop receives before it", "statement": "A connection is offered a call of Broadcast if and only if it is registered when the loop receives that call, whatever happens later. A connection that Upgrade has handed over and that was not dropped yet is registered or is the only one in the channel connect. While it is in the channel, the loop is at its select and a Broadcast waits, both happen: a run in which it misses that Broadcast for ever and a run in which it is offered it. So a client that is connected to the namespace on both sides before Broadcast is called may not hear it, although both sides stay open.", "quantifier": "all connections, all calls of Broadcast, all reachable states of the loop and all runs from them", "why_tests_cant": "Which of two ready channels select takes is up to the scheduler; that the broadcast is never offered later is a statement about all continuations.", "anchors": ["server.go:123", "server.go:171-196", "server.go:345", "server.go:504-538"]}
{"id": "C134", "title": "Server.Close, as the clients of the server know it", "statement": "The server-side connection of a client is closed exactly if the loop of the server knows it as closed. When Server.Close has returned, the connections of all clients that were registered when it got to send its action are closed, whatever the clients did meanwhile, and from then on these clients are sent nothing but answers without content and bytes of the handshake. Once the server is closed, no call of Server.Close waits and the loop does not have the connection before it, the server closes a connection no more. So a client whose Upgrade had passed the check in time is registered and served by a server that was closed: it joins a namespace, and its events reach the callbacks.", "quantifier": "all numbers of clients, all reachable states of a server with its clients, all interleavings, all continuations", "why_tests_cant": "It is about all interleavings of Close with the steps of all sessions, and that nothing is sent later is about all continuations.", "anchors": ["server.go:197-200", "server.go:210-216", "server.go:285-287", "server.go:345", "conn.go:1005-1040"]}
{"id": "C135", "title": "At rest a server counts and lists exactly the clients whose connection is open, and those it lost track of", "statement": "When nothing is under way at the server, the registered connections are those that Upgrade handed over and that are open, and those whose disconnection overtook their registration; GetTotalConnections is their number. A connection that is registered at some moment, and not lost already, is registered and listed by GetConnections under its ID at any later moment at rest exactly if it is open then, and if it is closed it was dropped exactly once, whatever all the clients did. A connection that was lost is counted and listed for ever although it is closed.", "quantifier": "all numbers of clients, all reachable states of a server with its clients, all runs, all orders of the map", "why_tests_cant": "It relates the count and the map to the state of all sessions at every rest of every interleaving.", "anchors": ["server.go:171-192", "server.go:406-410", "server.go:604-614", "conn.go:1005-1040"]}
{"id": "C136", "title": "Whatever is under way at a server comes to its end", "statement": "From every reachable state, if no new call is made and no connection is closed from outside, the goroutines of the server (the loop, the calls of Upgrade, Server.Close, Do and Broadcast, the goroutines that tell the loop of a closed connection) take only a bounded number of steps in every order, and such an order exists. Wherever they have come to an end, nothing is stuck: the loop waits at its select, every Upgrade is refused or has registered its connection, every closed connection was told to the loop and received, and every call has returned. Callbacks and the functions given to Do are taken to return and not to call the server again.", "quantifier": "all reachable states, all interleavings, any number of connections and calls", "why_tests_cant": "Absence of deadlock and a bound on the steps are about all schedules from all states.", "anchors": ["server.go:167-207", "server.go:210-216", "server.go:345", "server.go:417-434", "server.go:504-538", "conn.go:1032-1034"]}
{"id": "C137", "title": "The clients of a server cannot keep it busy", "statement": "As long as no new connection and no new call of Server.Close, Do or Broadcast is made, the server's own goroutines take no more steps than there is work at the server, however many steps all the clients and their connections take meanwhile and whatever these do, closing included. Where the server has nothing left to do, whatever the clients are doing, every call has returned, every Upgrade is refused or has registered its connection, and the registered connections are the open ones and those whose disconnection overtook their registration. The server gets there by itself from every reachable state, without any client taking a step.", "quantifier": "all reachable states of a server with any number of clients, all interleavings, of any length", "why_tests_cant": "The bound holds however long the clients go on, so no finite set of runs shows it.", "anchors": ["server.go:167-207", "server.go:210-216", "server.go:345", "server.go:417-434", "conn.go:1005-1040"]}
{"id": "C138", "title": "Nothing comes to a connection that is closed", "statement": "Once the server-side connection of a client is closed, nothing that the server does, and nothing that any other client or connection does, changes it or its client, even while it is still registered and broadcasts are brought to it. Whatever the connection and its own client do, it stays closed, and all that is put into its socket after that are text frames that are answers without content or bytes of the handshake.", "quantifier": "all runs, of any length, of a server with any number of clients from a state where the connection of one client is closed; for the second part, from all such reachable states", "why_tests_cant": "The claim covers every interleaving of broadcasts, of Server.Close and of the other clients with the loop that unregisters the connection, of any length.", "anchors": ["conn.go:843-845", "conn.go:1005-1040", "server.go:436-456", "server.go:167-207", "server.go:210-216"]}
{"id": "C139", "title": "What the loop of a server has to do with a connection, in order, exactly", "statement": "The events of the server's loop that are about one connection come in one of five ways: none; its disconnection is ignored because it comes first; after that it is registered and brought calls for ever; it is registered and brought calls; and after that it is removed and then OnDisconnect and the exchange are told, each at most once and in this order. No call is brought twice. Once a connection is removed it is brought nothing any more. Each of these stories, with any calls in any order, is that of a connection of some server.", "quantifier": "all reachable states of the loop with any number of connections and calls, all interleavings; all stories of any length for the converse", "why_tests_cant": "The first part is about every interleaving, and the converse about stories of any length and calls in any order.", "anchors": ["server.go:167-207", "server.go:345", "server.go:417-434", "server.go:533", "conn.go:1007-1040"]}
{"id": "C140", "title": "All that a server brings to one of its clients", "statement": "The batches that come to a client from the server are those of the calls of Broadcast that the loop offered to its connection, in this order and each call once, whatever the other clients do; Do and Server.Close bring no batch. Server.Close closes the connection of a client at most once, and from then on it is closed.", "quantifier": "all runs of a server with any number of clients and calls, all interleavings, of any length", "why_tests_cant": "The claim covers every interleaving of the loop with all sessions and calls, of any length.", "anchors": ["server.go:193-205", "server.go:210-216", "server.go:417-434", "server.go:436-456", "server.go:533", "conn.go:1005-1040"]}
{"id": "C141", "title": "The loop of a server does one thing after the other, exactly", "statement": "Whenever the loop waits for its next turn, what it did is a sequence of whole turns: a connection comes, for the first time; a registered connection goes, followed by OnDisconnect and the word to the exchange, where the exchange is told exactly if it is there and OnDisconnect was called or is not set; a disconnection comes before its connection; a call, for the first time, is brought to all connections registered then, once each, in some order. Nothing comes in between, however the goroutines that use the server are interleaved. While a call is brought to the connections, those still to be visited are the rest of the registered ones. Conversely, every such sequence of turns is what the loop of some server with these settings has done.", "quantifier": "all reachable states of the loop with any number of connections and calls, all interleavings, of any length", "why_tests_cant": "The claim covers every interleaving, of any length, and the converse every sequence of turns.", "anchors": ["server.go:167-207", "server.go:417-434", "server.go:533"]}
