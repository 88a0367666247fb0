{"id": "C01", "title": "Ring.Pick selects the owning point", "statement": "On a ring whose points are sorted by hash, for every key whose CRC32 is not itself the hash of a point, Pick terminates without panicking and returns the server of the point with the greatest hash below the key's CRC32, or of the first (lowest) point when no point is below it.", "quantifier": "all rings with at least one point, all keys not hashing exactly onto a point", "why_tests_cant": "The ring has 200 points per server and 2^32 hash values; a test tries a handful of keys on one ring.", "anchors": ["client/ring.go:Ring.Pick"]}
{"id": "C02", "title": "Pick on an exact hash hit", "statement": "When the key's CRC32 equals a point's hash, Pick still terminates and returns a configured server whose point is at or after that hash; a user would expect it to be the server of the point that was hit, which is true only when that point is the last one the binary search still considers.", "quantifier": "all rings, all keys hashing exactly onto a point", "why_tests_cant": "An exact hit has probability about 200n/2^32 per key, so no test sees one.", "anchors": ["client/ring.go:Ring.Pick"]}
{"id": "C03", "title": "Consistent hashing: growth moves keys only to the new server", "statement": "Adding a server to the pool changes the server picked for a key only if the new choice is the added server; equivalently removing a server only moves the keys it served.", "quantifier": "all server lists, all added servers, all keys not hashing exactly onto a point, provided two servers never share a point hash", "why_tests_cant": "Ranges over all keys and all server lists.", "anchors": ["client/ring.go:NewRing", "client/ring.go:Ring.Pick"]}
{"id": "C04", "title": "Ring independent of configuration order", "statement": "Two pools configured with the same servers in a different order route every key to the same server (so different processes agree on placement), however the unstable sort breaks ties.", "quantifier": "all permutations of all server lists, every outcome of the unstable sort, all keys (provided two servers never share a point hash)", "why_tests_cant": "Ranges over all permutations and over every result sort.Slice is allowed to return.", "anchors": ["client/ring.go:NewRing"]}
{"id": "C05", "title": "Ring membership", "statement": "A ring built from n servers has exactly 200 n points, 200 for each server; Pick returns one of the configured servers for every key when n >= 1, and panics for every key when n = 0; Find of the picked server's name gives the picked server back when names are distinct.", "quantifier": "all server lists, all keys", "why_tests_cant": "Universal over keys and configurations.", "anchors": ["client/ring.go:NewRing", "client/ring.go:Ring.Pick", "client/ring.go:Ring.Find"]}
{"id": "C06", "title": "GetMulti routing", "statement": "SinglePool.GetMulti (and ReplicaPool.GetMulti) asks every server exactly for the requested keys that Pick assigns to it, in the order requested and with repetitions kept, contacts no other server and contacts each at most once, whatever the map iteration order.", "quantifier": "all key lists, all rings with distinct names, all map iteration orders", "why_tests_cant": "Go map iteration order is random and the key list is unbounded.", "anchors": ["client/client.go:SinglePool.GetMulti", "cluster/cluster.go:ReplicaPool.GetMulti"]}
{"id": "C07", "title": "GetMulti merge and error", "statement": "If every contacted server answers, GetMulti returns, up to the order of servers, exactly the concatenation of the servers' answers; if a contacted server fails the whole call returns that error and no items.", "quantifier": "all key lists, all server answers, all map iteration orders", "why_tests_cant": "Ranges over all answers and iteration orders.", "anchors": ["client/client.go:SinglePool.GetMulti"]}
{"id": "C08", "title": "A pool behaves as one map", "statement": "For any sequence of operations (including GetMulti, Flush and Set with the Cas token of an earlier Get), a SinglePool over any number of servers that each implement the memcached semantics gives the results one single memcached would give (up to the opaque Cas tokens, the server name carried by items and the order of the items of a GetMulti): sharding is invisible.", "quantifier": "all operation sequences, all server counts, all hash functions, all map iteration orders", "why_tests_cant": "Unbounded histories and configurations.", "anchors": ["client/client.go:SinglePool"]}
{"id": "C09", "title": "Flush, Version and Close visit servers", "statement": "SinglePool.Flush/Version/Close without an error have called the operation exactly once on every server (per distinct name); on the first error they stop and return that error, so later servers in the (random) map order are untouched. Ring.Close in contrast calls every server and returns the last error.", "quantifier": "all configurations, all error patterns, all map iteration orders", "why_tests_cant": "Random iteration order and arbitrary failures.", "anchors": ["client/client.go:SinglePool.Flush", "client/client.go:SinglePool.Version", "client/client.go:SinglePool.Close", "client/ring.go:Ring.Each", "client/ring.go:Ring.Close"]}
{"id": "C10", "title": "Binary requests arrive as sent", "statement": "Every request written by the binary client (Get, GetMulti, Set, Add, Replace, Delete, Increment, Decrement, Touch, Flush, Version) is read by this module's server as a request with the same opcode, key, value, flags, delta and expiration (mod 2^32), consuming exactly the bytes sent, for keys up to 65535 bytes and bodies below 4 GiB.", "quantifier": "all keys, values, flags, deltas, expirations within the stated sizes, any following bytes", "why_tests_cant": "Infinite input domain, including arbitrary binary content.", "anchors": ["client/server.go:ServerWithBinaryProtocol", "client/server.go:binaryRequestHeader.EncodeTo", "client/client.go:Item.marshalBinaryRequestHeader", "server/server.go:conn.readBinaryRequest"]}
{"id": "C11", "title": "Text requests arrive as sent", "statement": "Every request written by the text client (Get, GetMulti, Set without Cas, Add, Replace, Delete, Increment, Decrement, Touch, Flush, Version) with keys free of spaces and line breaks is read by this module's server as a request with the same operation, key(s), value, flags, expiration or delta, consuming exactly the bytes sent; values may contain any bytes, including CRLF and protocol words.", "quantifier": "all such keys, all values below 2^31 bytes, flags < 2^31, expirations and deltas in 32-bit range, any following bytes", "why_tests_cant": "Infinite input domain.", "anchors": ["client/server.go:ServerWithTextProtocol", "server/server.go:conn.readAsciiRequest"]}
{"id": "C12", "title": "Meta requests arrive as sent", "statement": "Every Get, Set, Delete, Add, Replace, Increment, Decrement, Flush and Version request written by the meta client is read by this module's server as the corresponding request, consuming exactly the bytes sent.", "quantifier": "all keys free of spaces and line breaks, all values below 2^31 bytes, any following bytes", "why_tests_cant": "Infinite input domain.", "anchors": ["client/server.go:ServerWithMetaProtocol", "server/server.go:conn.readAsciiRequest"]}
{"id": "C13", "title": "Get over text protocol returns what the handler returned", "statement": "When the handler answers a text Get with a response, the client obtains exactly that key, value and flags; GetMulti obtains exactly the list of responses in order; an empty answer is ItemNotFound.", "quantifier": "all responses with printable ASCII keys, any value bytes, 4-byte or absent flags", "why_tests_cant": "Infinite input domain, values may imitate the protocol.", "anchors": ["server/server.go:Server.writeAsciiResponse", "client/server.go:ServerWithTextProtocol.Get", "client/server.go:ServerWithTextProtocol.GetMulti"]}
{"id": "C14", "title": "Get over meta protocol returns what the handler returned", "statement": "When the handler answers a meta Get with a response, the client obtains exactly the value, under the key it asked for; an empty answer is ItemNotFound.", "quantifier": "all keys, all values", "why_tests_cant": "Infinite input domain.", "anchors": ["server/server.go:Server.writeAsciiResponseMetaGet", "client/server.go:ServerWithMetaProtocol.parseGetResponse"]}
{"id": "C15", "title": "Get over binary protocol returns what the handler returned", "statement": "When the handler answers a binary Get or GetMulti with a response, the client obtains exactly that key, value and flags.", "quantifier": "all keys and flags with len(key)+len(flags) < 65536, all values with total body below 4 GiB", "why_tests_cant": "Infinite input domain, length fields can wrap.", "anchors": ["server/server.go:Response.writeAsBinaryProtocol", "client/server.go:ServerWithBinaryProtocol.Get", "client/server.go:ServerWithBinaryProtocol.GetMulti"]}
{"id": "C16", "title": "Pipelined sessions stay framed", "statement": "For every sequence of client operations sent over one connection to this module's server, the server calls the handler once per operation with that operation's request, in order, and each operation's reply bytes are exactly the ones its client call consumes.", "quantifier": "all finite operation sequences, all handlers", "why_tests_cant": "Unbounded sequences and inputs.", "anchors": ["server/server.go:Server.serve", "client/server.go"]}
{"id": "C17", "title": "Key hygiene / request injection", "statement": "A key without space, CR or LF can never make a text or meta request carry more than one command; the client does not reject other keys, and a key containing CRLF does inject a second command; a space in the key of a Set makes the server execute the value's bytes as commands.", "quantifier": "all keys", "why_tests_cant": "Ranges over all keys; a test checks a few.", "anchors": ["client/server.go:ServerWithTextProtocol.Get", "client/server.go:ServerWithMetaProtocol.Get"]}
{"id": "C18", "title": "Flag range", "statement": "Flags set by a client are stored and returned unchanged for all 2^32 values. True over the binary protocol. Towards this module's server text and meta requests deliver flags below 2^31 and make it drop the connection from 2^31 on; its text replies carry all flag values, its meta replies none. Towards memcached a text client round-trips all values, while a meta Get of an item with flags of 2^31 or more always fails and leaves the value unread on the connection.", "quantifier": "all 32-bit flag values", "why_tests_cant": "2^32 values, the failing half is never tested.", "anchors": ["client/server.go:ServerWithTextProtocol.Set", "client/server.go:ServerWithMetaProtocol.readGetFlagToken", "server/server.go:conn.readAsciiRequest"]}
{"id": "C19", "title": "No false success for Set", "statement": "Set returns nil only if the server's reply is the positive acknowledgement of the protocol (STORED line; line starting with HD; binary header with opcode Set and status 0); every other reply, or no complete reply, gives an error.", "quantifier": "all reply byte streams", "why_tests_cant": "Ranges over every possible server behaviour.", "anchors": ["client/server.go:ServerWithTextProtocol.Set", "client/server.go:ServerWithMetaProtocol.Set", "client/server.go:ServerWithBinaryProtocol.Set"]}
{"id": "C20", "title": "No false success for Add, Replace, Delete, Touch, Flush, Increment", "statement": "An operation that returns no error was positively acknowledged by the server. True of Add, Replace, Flush(text/meta), Increment and meta/binary Delete; not true of text Delete and text Touch, which return nil on any reply line other than NOT_FOUND, nor of binary Flush, which ignores the status.", "quantifier": "all reply byte streams", "why_tests_cant": "Ranges over every possible server behaviour.", "anchors": ["client/server.go:ServerWithTextProtocol.Delete", "client/server.go:ServerWithTextProtocol.Touch", "client/server.go:ServerWithBinaryProtocol.Flush"]}
{"id": "C21", "title": "Error identity", "statement": "ItemNotFound and ItemExists are returned exactly for the replies that mean it: per operation and protocol the set of replies mapped to each error is as documented (text/meta Add maps every non-STORED line to ItemExists, Replace to ItemNotFound; meta Delete maps NF to success).", "quantifier": "all reply lines", "why_tests_cant": "Ranges over every possible reply.", "anchors": ["client/server.go", "errors/errors.go"]}
{"id": "C22", "title": "Truncated replies never succeed", "statement": "If the connection ends (EOF, reset, deadline) before the last byte the operation reads of a reply, the operation returns an error: it never returns a truncated value, a shortened item list or a success.", "quantifier": "all operations, all replies, all cut points", "why_tests_cant": "Every crash point of every reply.", "anchors": ["client/server.go"]}
{"id": "C23", "title": "Value bytes are opaque", "statement": "A returned value is exactly the number of bytes announced by the reply, taken verbatim from the stream after the header, whatever they contain. Two exceptions are characterised: a meta VA line without any flag token is taken to have size 0, and binary lengths are computed modulo 2^16 for the key part.", "quantifier": "all replies of all protocols", "why_tests_cant": "Values may contain CRLF, END, VALUE or binary headers.", "anchors": ["client/server.go:ServerWithTextProtocol.Get", "client/server.go:ServerWithTextProtocol.parseGetResponse", "client/server.go:ServerWithMetaProtocol.parseGetResponse"]}
{"id": "C24", "title": "Connection stays in sync after every complete reply", "statement": "After an operation finishes, the next operation on the same connection starts reading at the first byte after the previous reply. True of every text operation on single-line replies and of binary Get, Replace, Delete, Increment; false for binary Set, Add, Touch, Flush, Version and GetMulti on an error status with a message body, which leave the body unread so the following operation misreads it.", "quantifier": "all replies, all operations", "why_tests_cant": "The failure shows only in the operation after an error with a body.", "anchors": ["client/server.go:ServerWithBinaryProtocol"]}
{"id": "C25", "title": "Meta GetMulti", "statement": "Meta GetMulti returns the hits among the requested keys and leaves the connection in sync. True when every key is present; when a key is missing the read loop stops at its EN line, dropping every later hit and leaving their replies in the connection, so a following Get returns another key's value.", "quantifier": "all key lists, all hit/miss patterns", "why_tests_cant": "Ranges over all hit/miss patterns; existing tests use only present keys.", "anchors": ["client/server.go:ServerWithMetaProtocol.GetMulti", "client/server.go:ServerWithMetaProtocol.parseGetResponse"]}
{"id": "C26", "title": "Text and binary GetMulti return exactly the hits", "statement": "Against a server that answers with the present items and the terminator, text and binary GetMulti return exactly those items with key, value and flags, in reply order, and leave the connection in sync; misses are simply absent.", "quantifier": "all item lists", "why_tests_cant": "Unbounded lists of arbitrary values.", "anchors": ["client/server.go:ServerWithTextProtocol.GetMulti", "client/server.go:ServerWithBinaryProtocol.GetMulti"]}
{"id": "C27", "title": "Counter results", "statement": "Increment/Decrement return the counter the server reports: exactly for all values below 2^63; above that text/meta return an error although the counter was changed and binary returns the value minus 2^64.", "quantifier": "all 64-bit counter values", "why_tests_cant": "2^64 values; the boundary is never tested.", "anchors": ["client/server.go:incrOrDecr"]}
{"id": "C28", "title": "Binary requests do not depend on earlier requests", "statement": "The bytes of every binary request are a function of its arguments only, independent of the headers recycled from earlier requests. True of all operations except Increment/Decrement, which skip the reset: after a Set with a Cas value they carry that stale Cas.", "quantifier": "all arguments, all previous contents of the recycled header", "why_tests_cant": "Depends on sync.Pool history.", "anchors": ["client/server.go:ServerWithBinaryProtocol.incrOrDecr", "client/server.go:binaryRequestHeader.Reset"]}
{"id": "C29", "title": "Caller's memory is not modified", "statement": "An operation never changes bytes of the caller's buffers. True of every operation except text and meta Set, which append CRLF to item.Value: when the slice has at least two bytes of spare capacity these bytes behind the value are overwritten (and otherwise nothing is).", "quantifier": "all slices: backing arrays, offsets, lengths, capacities", "why_tests_cant": "Depends on slice capacity and aliasing.", "anchors": ["client/server.go:ServerWithTextProtocol.Set", "client/server.go:ServerWithMetaProtocol.Set"]}
{"id": "C30", "title": "Concurrent callers get their own replies", "statement": "When any number of goroutines use one client connection concurrently, at most one of them has a request on the wire at any time, and the results, in the order in which the operations return, are those of executing the operations one after the other: each operation gets the reply to its own request. This holds up to the first operation that fails because the connection was closed (by either side) or a deadline passed; without passing deadlines all later ones fail too. At a memcached server the results are those of the abstract store.", "quantifier": "all numbers of goroutines, all calls of the three clients, all servers, all interleavings of callers, Close, network and server steps", "why_tests_cant": "All schedules.", "anchors": ["client/server.go (mu in every operation)"]}
{"id": "C31", "title": "Independence of TCP segmentation", "statement": "The result of reading a request or reply depends only on the byte stream, not on how it is split into network reads.", "quantifier": "all byte streams, all ways of cutting them into non-empty reads", "why_tests_cant": "All segmentations of all streams.", "anchors": ["client/server.go", "server/server.go:newConn"]}
{"id": "C32", "title": "Closed text connection", "statement": "After Close of a text connection every operation returns an error without sending anything, and a second Close returns an error; this holds until Reconnect.", "quantifier": "all operations, all histories of Close/operation calls", "why_tests_cant": "All histories.", "anchors": ["client/server.go:ServerWithTextProtocol.Close"]}
{"id": "C33", "title": "Reconnect", "statement": "A successful Reconnect gives a fresh, in-sync connection on which operations work again. But a Reconnect whose dial fails is final: for the meta and binary clients no later Reconnect can succeed, even when the server is back, and for the text client not before a Close; Close of a meta or binary client is final in the same way; and after Close and Reconnect of a text connection Close reports 'already closed' and leaves the new connection open.", "quantifier": "all histories of connect, operations, close, reconnect, dial outcomes", "why_tests_cant": "All histories of network outcomes.", "anchors": ["client/server.go:Reconnect", "client/server.go:ServerWithTextProtocol.Close"]}
{"id": "C34", "title": "Heartbeat", "statement": "With heartbeats enabled the connection is probed; because a one-shot timer is used at most one probe is ever made, in every schedule; the heartbeat goroutine of meta and binary connections never terminates once the probe succeeded, also not after Close.", "quantifier": "all schedules of timer, close and probe outcomes", "why_tests_cant": "All schedules, unbounded time.", "anchors": ["client/server.go:heartbeat"]}
{"id": "C35", "title": "Close during an operation", "statement": "Closing a connection while other goroutines are inside operations makes those operations return their proper result or fail cleanly, and unblocks them. No schedule panics for the meta and binary clients, nor for the text client when no Timeout is set and one goroutine at a time closes; with a Timeout a schedule exists in which an operation dereferences the cleared connection and panics, and with two goroutines calling Close one in which Close panics.", "quantifier": "all interleavings of any number of Close calls with any number of operations", "why_tests_cant": "All schedules.", "anchors": ["client/server.go:ServerWithTextProtocol.Close", "client/server.go:ServerWithTextProtocol.Get"]}
{"id": "C36", "title": "Server answers requests one by one in order", "statement": "For every byte stream a client sends, the handler is called once per complete well-formed request, in stream order, until the first malformed request, handler error or end of stream; the bytes sent back are the concatenation of the replies in that order; after that the connection is closed and nothing more is handled.", "quantifier": "all byte streams, all handlers", "why_tests_cant": "Unbounded streams.", "anchors": ["server/server.go:Server.serve", "server/server.go:conn.readRequest"]}
{"id": "C37", "title": "Protocol detection", "statement": "The protocol of a connection is fixed by its very first byte (0x80: binary, otherwise text) and never changes.", "quantifier": "all byte streams", "why_tests_cant": "All streams.", "anchors": ["server/server.go:conn.detectProtocol", "server/server.go:conn.readRequest"]}
{"id": "C38", "title": "Inputs that crash the server", "statement": "No byte stream makes request parsing panic (a panic in the connection goroutine takes the whole process down), except exactly: text set/add/replace with a negative length (\u22121: once one more byte has arrived), ms with a negative S size or an empty token, and binary set/add/replace with less than 8 bytes of extras or a body shorter than extras+key, incr/decr with less than 20, touch with less than 4 bytes of extras.", "quantifier": "all byte streams", "why_tests_cant": "All inputs; fuzzing only samples.", "anchors": ["server/server.go:conn.readAsciiRequest", "server/server.go:conn.readBinaryRequest"]}
{"id": "C39", "title": "Error answers of the server", "statement": "A handler error response is reported to the client. In fact for every operation but Get nothing at all is written, so the client waits; for Get a VALUE block with empty data is written, which the client reads as a hit.", "quantifier": "all requests, all error responses", "why_tests_cant": "Ranges over all requests.", "anchors": ["server/server.go:Server.writeAsciiResponse", "server/server.go:Server.writeBinaryResponse"]}
{"id": "C40", "title": "Server reply shape", "statement": "Each non-error handler response to a text or binary request is written as exactly the protocol's reply: STORED, DELETED, TOUCHED, OK, number line, VALUE blocks with END, HD, or a 24-byte header whose lengths match the body that follows.", "quantifier": "all requests, all responses with key+flags+value below 4 GiB, key below 64 KiB, flags below 256 bytes", "why_tests_cant": "Infinite input domain.", "anchors": ["server/server.go:Server.writeAsciiResponse", "server/server.go:Response.writeAsBinaryProtocol"]}
{"id": "C41", "title": "Replica write order", "statement": "ReplicaPool.Set/Add/Replace/Delete/Increment/Decrement contact the primary first; if the primary reports an error the secondary is not contacted and that error is returned; otherwise the secondary's error (if any) is returned; reads never contact a secondary.", "quantifier": "all operations, all server answers", "why_tests_cant": "Ranges over all answers.", "anchors": ["cluster/cluster.go:ReplicaPool"]}
{"id": "C42", "title": "Replicas agree", "statement": "After any sequence of Get, Delete and of Set, Add, Replace of items without Cas (flags absent or a 4-byte number below 2^31) through one ReplicaPool whose servers answer, starting from equal contents, every key has the same value, flags and expiry on its primary and on its secondary.", "quantifier": "all operation sequences, all numbers of primaries and secondaries, all hash functions", "why_tests_cant": "Unbounded histories.", "anchors": ["cluster/cluster.go:ReplicaPool"]}
{"id": "C43", "title": "Replicas agree after Increment/Decrement", "statement": "After Increment/Decrement through a ReplicaPool the secondary holds the same item as the primary. True for items with a remaining lifetime of at most 30 days; false for items without expiration: the lifetime -1 read back makes the copy on the secondary expire at once. A failed call leaves every server but the primary unchanged; in particular an increment to 2^63 or more changes the primary, returns an error and leaves the copies different.", "quantifier": "all items, deltas, times", "why_tests_cant": "Depends on time and lifetime of the item.", "anchors": ["cluster/cluster.go:ReplicaPool.Increment", "cluster/cluster.go:ReplicaPool.Decrement"]}
{"id": "C44", "title": "Compare-and-swap through a replica pool", "statement": "A Set with a Cas token obtained from the pool is applied on both replicas. It is applied on the primary, but the secondary compares the primary's token with its own, so the call can fail after the primary changed, leaving the replicas different. Likewise Add of an item that still carries a token stores it on the primary and fails on the secondary.", "quantifier": "all states of both replicas", "why_tests_cant": "Needs states where the two servers' counters differ.", "anchors": ["cluster/cluster.go:ReplicaPool.Set"]}
{"id": "C45", "title": "Concurrent increments through a replica pool", "statement": "With any number of goroutines incrementing and decrementing one counter through a ReplicaPool (among others working on other keys), no update is lost on the primary: at every moment of every schedule it holds the number obtained by doing the started calls one after the other, each call returns the number the counter has right after it in that order, so positive Increments never return the same number twice; the secondary only ever holds numbers the counter had. But it need not end up equal: a schedule of two Increments exists after which both succeeded and the secondary has an older number.", "quantifier": "all interleavings of the three backend steps of each call", "why_tests_cant": "All schedules.", "anchors": ["cluster/cluster.go:ReplicaPool.Increment"]}
{"id": "C46", "title": "Router serves only get and set", "statement": "The router answers Get and Set; for every other request it contacts no backend and closes the client connection.", "quantifier": "all requests, all backend states", "why_tests_cant": "All requests.", "anchors": ["proxy/replica_pool.go:ReplicaProxy.ServeRequest"]}
{"id": "C47", "title": "Router end to end", "statement": "A meta or binary client that Sets a key through the router and then Gets it obtains exactly the stored value, and primary and secondary memcached both hold it.", "quantifier": "all keys free of control characters, all values, all states of the backends", "why_tests_cant": "Composes five codecs; infinite domain.", "anchors": ["proxy/replica_pool.go", "server/server.go", "cluster/cluster.go", "client/server.go"]}
{"id": "C48", "title": "Router get miss", "statement": "A Get of a missing key through the router returns ItemNotFound. In fact a meta or binary client gets a hit with an empty value, and a text client a parse error, with the rest of the reply left unread.", "quantifier": "all keys", "why_tests_cant": "Tests only look at hits.", "anchors": ["proxy/replica_pool.go:ReplicaProxy.ServeRequest", "server/server.go:Server.writeAsciiResponse"]}
{"id": "C49", "title": "Router and text clients", "statement": "A text client's Get(key) through the router looks up key. In fact the text client sends gets, whose keys the router ignores: it looks up the empty key, for every key asked.", "quantifier": "all keys", "why_tests_cant": "The proxy has no tests.", "anchors": ["proxy/replica_pool.go:ReplicaProxy.ServeRequest", "client/server.go:ServerWithTextProtocol.Get", "server/server.go:conn.readAsciiRequest"]}
{"id": "C50", "title": "Flags through the router", "statement": "Flags set through the router are returned by Get through the router. In fact Get never returns flags, and a Set by a meta client stores none.", "quantifier": "all flags", "why_tests_cant": "The proxy has no tests.", "anchors": ["proxy/replica_pool.go:ReplicaProxy.ServeRequest"]}
{"id": "C51", "title": "Replies that crash the client", "statement": "No reply makes a client operation panic, except exactly the malformed ones characterised per operation (negative sizes, VALUE lines with missing fields, one-byte lines, binary bodies shorter than their announced parts).", "quantifier": "all reply byte streams", "why_tests_cant": "All inputs.", "anchors": ["client/server.go"]}
{"id": "C52", "title": "Client against memcached: every history", "statement": "For every sequence of Get, GetMulti, Set, Add, Replace, Delete, Increment, Decrement, Touch, Flush calls over one text connection (and of the same calls without Touch, and with GetMulti only of present keys, over one meta connection; and over one binary connection as long as no Set, Add or Touch is refused and no counting follows a Set with a token) to a memcached server, each call's result is the one the abstract key-value semantics gives, and the connection is in sync after every call.", "quantifier": "all operation sequences with legal keys and sizes, all times", "why_tests_cant": "Unbounded histories.", "anchors": ["client/server.go:ServerWithTextProtocol"]}
{"id": "C53", "title": "Tokens through the router", "statement": "A Set through the router with a token that does not match is answered with an error. In fact it gets no reply at all, even when the primary has stored the value.", "quantifier": "all items, all backend states", "why_tests_cant": "The proxy has no tests.", "anchors": ["proxy/replica_pool.go:ReplicaProxy.ServeRequest", "server/server.go:Server.writeAsciiResponse"]}
{"id": "C54", "title": "After a timeout", "statement": "After an operation that failed because its reply did not come within Timeout, later operations still get their own replies. In fact the connection stays in use and the next operation reads the late reply of the first one: every later Get on a text connection returns the item of the Get before it, and on a meta or binary connection the value of the key asked for before under the key asked for now, so that the caller cannot notice.", "quantifier": "all servers, all calls; all stores and all sequences of keys", "why_tests_cant": "Needs a server that is slow at the right moment, and all sequences.", "anchors": ["client/server.go:ServerWithTextProtocol.Get"]}
{"id": "C55", "title": "Binary connection after a refusal", "statement": "After memcached refuses a Set, Add or Touch over a binary connection, later operations on the connection still get their own replies. In fact the error text stays unread: the next operation, whatever it is, returns the invalid-response error although memcached carried it out, and so do all later changes.", "quantifier": "all items, stores, recycled headers and later operations", "why_tests_cant": "Needs a server that sends the error texts, and all sequences of later operations.", "anchors": ["client/server.go:ServerWithBinaryProtocol.Set", "client/server.go:ServerWithBinaryProtocol.Add", "client/server.go:ServerWithBinaryProtocol.Touch"]}
{"id": "C56", "title": "Concurrent connections to a server", "statement": "A Server with any number of simultaneous connections gives each of them exactly the session its own bytes call for, unaffected by how the others are scheduled, stalled, malformed or cut; with an atomic handler all requests together have one order that respects each connection's order and real time. In fact the connections share the process: one request of the panicking kinds on any connection ends all of them.", "quantifier": "all handlers (including ones with overlapping calls), numbers of connections, byte streams and interleavings of accepting, arriving bytes, handler work and failures", "why_tests_cant": "The interleavings of connections are unbounded in number and length.", "anchors": ["server/server.go:Server.Serve", "server/server.go:Server.serve", "server/server.go:Server.serveRequest"]}
{"id": "C57", "title": "Connection after a recovered panic", "statement": "A program that recovers from a panic in an operation (Set with a flags slice shorter than four bytes) can go on using the connection. True for meta connections. In fact on a binary connection the header of the abandoned request stays in the write buffer: memcached takes the next operation's request for the body of the abandoned Set, so that a following Get stores an item under a key nobody named and reports a hit with an empty value, or hangs.", "quantifier": "all items, recycled headers, next operations and stores", "why_tests_cant": "Needs a recovered panic followed by any other operation against a real server; all lengths.", "anchors": ["client/server.go:ServerWithBinaryProtocol.Set", "client/server.go:ServerWithBinaryProtocol.Add", "client/server.go:ServerWithBinaryProtocol.Replace", "client/server.go:ServerWithMetaProtocol.Set"]}
{"id": "C58", "title": "Concurrent calls on a ReplicaPool", "statement": "Methods of one ReplicaPool called from any number of goroutines behave, for the callers, as if carried out one after the other on the primaries, each at one moment between call and return; every call returns after at most three server calls of its own; a secondary never holds a value nobody stored. When no two calls that write a key overlap, the copies of that key agree whenever no such call is in progress. In fact two overlapping Sets of one key can both succeed and leave different values on primary and secondary for good, and an Increment that took effect can return ItemNotFound.", "quantifier": "all pools, stores, numbers of goroutines, calls and schedules", "why_tests_cant": "The schedules are unbounded in number and length.", "anchors": ["cluster/cluster.go:ReplicaPool.Get", "cluster/cluster.go:ReplicaPool.Set", "cluster/cluster.go:ReplicaPool.Add", "cluster/cluster.go:ReplicaPool.Replace", "cluster/cluster.go:ReplicaPool.Delete", "cluster/cluster.go:ReplicaPool.Increment", "cluster/cluster.go:ReplicaPool.Decrement"]}
{"id": "C59", "title": "Router with concurrent clients", "statement": "Any number of clients use a router at once: their requests have one order, compatible with what each client did before what, in which the answers are those of a single store of values; each client reads, over its own protocol, exactly the results of its own calls in that order, and the store is what the primaries hold. No client has to wait for another one's request: a pending request can always be finished by its own goroutine.", "quantifier": "all pools, server contents, numbers of clients, protocols, calls and interleavings of arriving bytes, requests, calls on memcached servers, replies and passing time", "why_tests_cant": "The interleavings are unbounded in number and length, and the claim is about all clients at once.", "anchors": ["cmd/router/main.go:main", "server/server.go:Server.Serve", "proxy/replica_pool.go:ReplicaProxy.ServeRequest", "cluster/cluster.go:ReplicaPool.Get", "cluster/cluster.go:ReplicaPool.Set"]}
{"id": "C60", "title": "Router whose memcached connections break", "statement": "When the connection from a router to one of its memcached servers breaks (or the server is restarted), the router never uses that server again, not even when the server is back: every later call that needs it is answered by closing the client's connection without a word; a Set whose secondary is lost is stored on the primary and yet dropped; an answer that is given is always the right one; calls on keys of other servers are answered as if nothing had happened.", "quantifier": "all pools with disjoint rings, server contents, histories of calls over the three protocols, connection failures and restarts, and all moments inside a call at which a connection may break", "why_tests_cant": "The claim is about all later calls of all histories and every failure point; the damage is permanent, which no finite test can show.", "anchors": ["proxy/replica_pool.go:ReplicaProxy.ServeRequest", "cluster/cluster.go:ReplicaPool.Get", "cluster/cluster.go:ReplicaPool.Set", "client/server.go:ServerWithMetaProtocol", "server/server.go:Server.serve"]}
{"id": "C61", "title": "Starting a router", "statement": "A router starts exactly when its configuration can be read, every configured memcached server, primary or secondary, can be connected to, and its port is free; one unreachable server makes the process panic without trying the ones after it. Which servers a key goes to depends only on the names configured for each role, not on their order or addresses. A router configured without secondaries starts and answers Gets, but the first Set is stored and takes the process down; one without primaries goes down at the first Get or Set.", "quantifier": "all configurations, reachability of each server at each dial, hash functions, server contents, first calls over the three protocols", "why_tests_cant": "The configurations and failure points are unbounded; the crash shows up only at the first write, long after a start that looked right.", "anchors": ["cmd/router/main.go:main", "cmd/router/main.go:connectServers", "proxy/replica_pool.go:NewReplicaProxy", "cluster/cluster.go:NewReplicaPool", "client/ring.go:NewRing", "server/server.go:Server.ListenAndServe"]}
{"id": "C62", "title": "A pool passes a call on unchanged", "statement": "Get, Set, Add, Replace, Delete, Increment, Decrement and Touch of a SinglePool each make exactly one call on a server: the same method with the same arguments (key, value, flags, delta, expiration) on the server the ring picks for the key; what that call returns (value, error or panic) is what the pool returns, and nothing else happens. A pool without servers panics and calls nothing.", "quantifier": "every pool, every server behaviour, every key, item, delta and expiration", "why_tests_cant": "A unit test with particular servers does not exclude a dropped or swapped argument: e.g. a text memcached ignores the expiration of incr and decr, so no test against one notices that it is not passed on.", "anchors": ["client/client.go:37-51", "client/client.go:75-89", "client/ring.go:Pick"]}
{"id": "C63", "title": "Meta requests of any client", "statement": "The server reads mg <key> <word> ... of any client as a get whose options are exactly the letters of the first word after the key; every further word (memcached's usual notation) is ignored, and mg <key> alone is refused. ms <key> <size> <tokens> is read as a set whose options are given by the tokens, the last one of each letter counting, unknown ones ignored; an S token replaces the announced size, so that the rest of the value is read as further requests. q is reported to the handler but the reply is sent all the same; without v the reply announces the size of a value that does not follow.", "quantifier": "all keys, flag words, further words, tokens with numbers in range, values, handler responses and following bytes", "why_tests_cant": "The requests range over all words and token lists; tests cover the few this module's client sends.", "anchors": ["server/server.go:193-285", "server/server.go:528-551", "server/server.go:645-684"]}
{"id": "C64", "title": "GetMulti against this module's server", "statement": "Binary: with a handler that answers each get with at most one response and the no-op with an empty one, GetMulti returns exactly the responses in key order and the connection stays in step; if the handler answers one get with several responses, the server sends a no-op reply nobody asked for, GetMulti stops there and the remaining replies are left for the next call. Meta: if all keys are there, GetMulti fails, because the server refuses mn and closes; it succeeds only when a key is missing, with the values before the first miss and without their keys. Through the router, GetMulti never succeeds over either protocol.", "quantifier": "all handlers, handler states, key lists, responses in range, following bytes; for the router all pools, memcached servers and their contents", "why_tests_cant": "Whether a batch succeeds depends on the whole sequence of replies and on how the stream ends; the failing combinations are invisible when client and server are tested apart.", "anchors": ["client/server.go:GetMulti", "server/server.go:295-394", "server/server.go:493-515", "server/server.go:686-710", "proxy/replica_pool.go:20-49"]}
{"id": "C65", "title": "Text requests the server accepts", "statement": "On a text connection the server accepts exactly the requests of a grammar (get with one key, gets with any number, set/add/replace with exactly four arguments and a data block, delete, incr/decr, touch, flush_all, version, mg, ms, md): a stream begins with at most one such request, splits uniquely into requests followed by something that is none, and the handler is called with exactly those requests in order; what follows closes the connection without an answer or crashes the server. In fact cas, mn, quit, get with several keys and every noreply form (except after flush_all) are refused by closing the connection silently, although the module's own text client sends cas and its meta client mn; on a line ending in LF alone the LF becomes part of the last word, so also of the key.", "quantifier": "all byte streams, handlers and handler states", "why_tests_cant": "The claim is about all byte streams, in both directions (what is accepted and what is refused).", "anchors": ["server/server.go:conn.readAsciiRequest", "server/server.go:Server.serve"]}
{"id": "C66", "title": "Binary requests the server accepts", "statement": "On a binary connection the server accepts exactly the requests of a grammar over the header (opcode, key length, extras length, total body length) and body: a stream begins with at most one such request, splits uniquely, and the handler is called with exactly those requests in order. In fact CAS, opaque, vbucket and data type are not looked at (a conditional Set is carried out unconditionally); bodies of flush, no-op and version requests and whatever a get or delete has besides its key are taken for the next request; an opcode outside the list closes the connection without an answer.", "quantifier": "all byte streams, header fields, handlers and handler states", "why_tests_cant": "The claim is about all byte streams, in both directions.", "anchors": ["server/server.go:conn.readBinaryRequest", "server/server.go:Server.serve"]}
{"id": "C67", "title": "One pool used by many goroutines", "statement": "Any number of goroutines call the methods of one SinglePool over text connections, in any interleaving. What they get and what is stored is what one memcached shared by all of them could have given in the same schedule, where every call on one key is carried out at one moment between its begin and its return (also Sets that use the token of an earlier Get), a GetMulti server by server with all keys of one server at one moment, and a Flush server by server. So Add is a lock (of any number of concurrent Adds of one key at most one succeeds) and Increment a counter (no increment is lost, no number is given out twice). Over two servers GetMulti and Flush are not atomic: there are schedules whose results one memcached could give at no moment.", "quantifier": "all rings with distinct server names, hash functions, map iteration orders (for each call), contents, numbers of goroutines, calls with acceptable arguments, schedules and passing of time", "why_tests_cant": "The claim quantifies over all interleavings of any number of goroutines.", "anchors": ["client/client.go:SinglePool", "client/ring.go:Each"]}
{"id": "C68", "title": "Calls on a shared connection return", "statement": "Any number of goroutines use one client connection. Calls under way never go on for ever: without new calls only finitely many things happen. When nothing more happens by itself, either every call has returned, or exactly one call is waiting for more of its reply, on an open connection, without deadline, having read everything the server has sent, and all others wait for it. Hence: if the server's output would satisfy the calls made one after the other (a memcached does), or the connection is closed by either side, or Timeout is set and deadlines pass, all calls return: there is no deadlock and the mutex is never left locked. Without Timeout a silent server blocks the caller and everybody else on the connection for ever.", "quantifier": "all numbers of goroutines, calls, schedules, splittings of the traffic, server behaviours (as functions of what they have received), Close by any goroutine at any time (as long as no goroutine panics, see C35)", "why_tests_cant": "Absence of deadlock and of endless runs is a statement about all executions of unbounded length.", "anchors": ["client/server.go:ServerWithTextProtocol", "client/server.go:ServerWithMetaProtocol", "client/server.go:ServerWithBinaryProtocol", "client/server.go:Close"]}
{"id": "C69", "title": "Reconnect among many goroutines", "statement": "Any number of goroutines use one client, call Reconnect on it and Close it, in any interleaving (the heartbeat is such a goroutine). Between two successful Reconnects the operations return, up to the first input/output failure, what they would return one after the other on a fresh connection; replies never cross from one connection to the next, and a connection receives exactly the requests of the operations of its time. If nobody calls Close at most one dialled connection is open. But Close takes no lock: a Close of the text client during Reconnect may leave the new connection open for ever, with both calls returning normally.", "quantifier": "all numbers of goroutines, calls, schedules, splittings of the traffic, dial failures, server behaviours on each connection (as functions of what they have received on it), Close and Reconnect by any goroutine at any time", "why_tests_cant": "The claims quantify over all interleavings of any number of goroutines and any number of reconnections.", "anchors": ["client/server.go:Reconnect", "client/server.go:Close", "client/server.go:heartbeat"]}
{"id": "C70", "title": "Replies Get and GetMulti accept", "statement": "For each protocol the replies for which Get or GetMulti returns values are exactly those of a grammar, and the grammar fixes every field of every returned item and what is left in the connection. Text Get: a header line of words separated by any white space (VALUE, key, unsigned flags, size, and unless the line has exactly three spaces a cas token; anything may follow a number), the value, two bytes that may be anything, END. Text GetMulti: blocks whose words are separated by single spaces, then END. Meta: VA, one arbitrary byte, the size and fields (later ones override earlier ones, a CR or a space ends a field), the value, two arbitrary bytes; GetMulti stops at the first EN or MN. Binary: any opcode and opaque with status 0; lengths added in 16 bits; GetMulti ends with a no-op header whatever its status. In fact the key in the reply of a text Get is not compared with the key asked for, junk after the size is accepted, a negative size makes Get panic, a VA line without space is an empty value.", "quantifier": "all byte streams, keys, client names and request headers; both directions", "why_tests_cant": "The claim is about all byte streams: what is accepted as well as what is refused.", "anchors": ["client/server.go:ServerWithTextProtocol.Get", "client/server.go:ServerWithTextProtocol.parseGetResponse", "client/server.go:ServerWithMetaProtocol.parseGetResponse", "client/server.go:ServerWithMetaProtocol.readGetFlagToken", "client/server.go:ServerWithBinaryProtocol.Get", "client/server.go:ServerWithBinaryProtocol.GetMulti"]}
{"id": "C71", "title": "Options and the heartbeat of a client in use", "statement": "The options given to a constructor have the same effect in any order and number: a heartbeat runs exactly when EnableHeartbeat is among them and reconnects exactly when EnableAutoReconnect is too; EnableAutoReconnect alone does nothing; a failed dial leaves nothing behind. A client with a heartbeat behaves like one used by one goroutine more (Version, then Reconnect or Close), so C69 holds with it. In fact the heartbeat sends at most one probe in the whole life of the client: after it nothing is dialled again unless the program calls Reconnect; without EnableAutoReconnect a failed probe of a meta or binary client finishes the client for good, and so does any Close: no later operation and not even Reconnect succeeds. With EnableAutoReconnect the heartbeat of a text client can undo a Close: the connection it then opens cannot be closed any more. A nil option panics and leaves the dialled connection open.", "quantifier": "all lists of options, numbers of goroutines, calls, schedules, moments at which the timer fires, splittings of the traffic, dial failures and server behaviours", "why_tests_cant": "The claims quantify over all interleavings of the heartbeat with any number of goroutines, over unbounded runs.", "anchors": ["client/server.go:heartbeat", "client/server.go:EnableHeartbeat", "client/server.go:EnableAutoReconnect", "client/server.go:NewServerWithTextProtocol", "client/server.go:NewServerWithMetaProtocol", "client/server.go:NewServerWithBinaryProtocol", "client/server.go:Reconnect", "client/server.go:Close"]}
{"id": "C72", "title": "Data races between the methods of a client", "statement": "However many goroutines call the operations and Reconnect of one client, with a heartbeat that reconnects or not probing it too, no two of them touch the same memory of the client at the same time unless one is inside Close: programs without Close are free of data races. In the meta and the binary client the only race is Close against Reconnect. In the text client Close, which takes no lock, races with every operation, with Reconnect and with a second Close; with EnableHeartbeat alone such a race can happen although the program itself never calls Close.", "quantifier": "all kinds of client, numbers of goroutines, calls, schedules, server behaviours", "why_tests_cant": "Absence of data races is a statement about all schedules; the race detector sees only those that are run.", "anchors": ["client/server.go:Close", "client/server.go:Reconnect", "client/server.go:ServerWithTextProtocol", "client/server.go:ServerWithMetaProtocol", "client/server.go:ServerWithBinaryProtocol", "client/server.go:heartbeat"]}
{"id": "C73", "title": "Calls get on when goroutines Close and Reconnect too", "statement": "With any number of goroutines calling the operations, Close and Reconnect of one client, calls that are under way do not go on for ever without new calls, and when they stop, all have returned, or exactly one operation waits for a reply on an open connection with no deadline and everybody else, Reconnect included, waits for that operation: Reconnect does not free an operation that a silent server keeps waiting. Close does, for meta and binary clients and for a text client not closed before. A text client that was closed once and reconnected cannot be closed again: an operation waiting there waits until the server answers or hangs up, whatever is called. Behind a memcached server, with nobody calling Close, all calls return whenever Reconnect is called and whatever connections are lost.", "quantifier": "all kinds of client, numbers of goroutines, calls, schedules, numbers of reconnects, server behaviours", "why_tests_cant": "Termination and absence of deadlock are statements about all schedules and unbounded waiting.", "anchors": ["client/server.go:Close", "client/server.go:Reconnect", "client/server.go:ServerWithTextProtocol", "client/server.go:ServerWithMetaProtocol", "client/server.go:ServerWithBinaryProtocol"]}
{"id": "C74", "title": "Results belong to the caller", "statement": "What an operation returns is the caller's: although replies are read through a buffer that is used again and again, the items hold exactly what the bytes of the reply say, lie in memory made by that operation, share none with other items ever returned, and keep their contents whatever is later done on the connection or elsewhere, also if they are given back to Set, which then sends them as they came. Of the caller's memory an operation changes nothing, except that text and meta Set may overwrite two bytes behind the value given to them (C29). Appending to the Value or the Flags of an item from text or meta changes no item. In fact Flags and Value of an item from binary Get or GetMulti are parts of one array and the Flags have its whole capacity: append(item.Flags, ...) overwrites the beginning of item.Value.", "quantifier": "all operations, protocols, replies, ways the bytes come in, memories, sequences of operations on a connection and of what the caller does in between", "why_tests_cant": "Aliasing shows only when later traffic happens to overwrite the right bytes; the claim is about all later traffic.", "anchors": ["client/server.go:ServerWithTextProtocol.Get", "client/server.go:ServerWithTextProtocol.parseGetResponse", "client/server.go:ServerWithMetaProtocol.parseGetResponse", "client/server.go:ServerWithBinaryProtocol.Get", "client/server.go:ServerWithBinaryProtocol.GetMulti", "client/client.go:Item"]}
{"id": "C75", "title": "Several clients of one memcached", "statement": "Any number of clients, each speaking the text, meta or binary protocol, that use one memcached server in any order get the results one map would give. What one stores with Set, Add or Replace every other gets with the same value and flags, whatever protocols they speak, until it expires. A Set with the token of an item fetched before by Get (or by GetMulti of a meta client) succeeds only if the server held that very item from the fetch to the Set: no update by anyone else is lost; if it fails, nothing is changed, and the error is ItemExists exactly when the key holds another item. Counting from several clients loses no count. In fact items from GetMulti of a text or binary client carry no token, so that a Set of such an item silently overwrites what others stored meanwhile.", "quantifier": "all numbers of clients, protocols, operations, orders of calls, delays, contents of the server, ways headers are recycled", "why_tests_cant": "The claim is about all interleavings of several clients' calls and all contents; a test runs a few.", "anchors": ["client/server.go:ServerWithTextProtocol", "client/server.go:ServerWithMetaProtocol", "client/server.go:ServerWithBinaryProtocol", "client/client.go:Item"]}
{"id": "C76", "title": "Write errors", "statement": "However the writes to a connection go, the other side has received a prefix of the requests of the operations called, in order and without gaps. An operation that returns without an error, or that has taken a byte of the reply, has delivered its whole request and all requests before it. A write that fails makes the operation fail without reading a reply, is the last write on that connection, and from then on every operation fails the same way without sending or reading anything, until Reconnect. As long as no write fails the write buffer makes no difference. A request of at most 4096 bytes is one write; a longer one may reach the server in part although the operation fails. The server stops serving a connection at the first reply it cannot write: that request has taken effect, later ones are not handed to the handler, earlier replies were sent in full.", "quantifier": "all operations, protocols, sequences of operations, replies, handlers, requests, and all ways the writes of a connection can fail", "why_tests_cant": "Where a write fails, and after how many bytes, is up to the network; the claims are about all of these points and all histories before and after.", "anchors": ["client/server.go:ServerWithTextProtocol", "client/server.go:ServerWithMetaProtocol", "client/server.go:ServerWithBinaryProtocol", "server/server.go:Server.serve", "server/server.go:Server.writeAsciiResponse", "server/server.go:Server.writeBinaryResponse"]}
{"id": "C77", "title": "Connections that hold only so many bytes", "statement": "However little a connection holds in each direction (at least a byte) and however much the server reads at once, an operation that sends one request comes through: every run of client and server ends, and it can end only with the client having the whole reply, from which it returns what it should. That holds for all operations of all protocols except the GetMulti of a meta or binary client, which writes all its requests before it reads anything: it comes through if all replies fit into the connection; if the replies to some first keys do not fit, nor the requests for the other keys, it never returns - client and server wait for each other, and without a deadline this is for ever. For every connection there is a number of keys from which on that happens.", "quantifier": "all operations, protocols, connection capacities, read sizes, server contents or handlers, and all interleavings of client, network and server", "why_tests_cant": "Whether the deadlock shows up depends on buffer sizes of both kernels and on timing; that single-request operations never do it is a statement about all interleavings.", "anchors": ["client/server.go:ServerWithTextProtocol", "client/server.go:ServerWithMetaProtocol.GetMulti", "client/server.go:ServerWithBinaryProtocol.GetMulti", "server/server.go:Server.serve", "server/server.go:Server.serveRequest"]}
{"id": "C78", "title": "Requests belong to the handler", "statement": "What the server hands to a handler is the handler's: although requests are read through one buffer per connection that is used again and again, Flags and Value of a request hold exactly what the client sent, lie in memory made for that request, share none with each other, with other requests of this or any other connection or with what connections read into, and keep their contents for as long as the handler keeps them, whatever arrives later, unless somebody writes into them. A handler may overwrite or append to what it was given without changing any other request, nor what the server reads on any connection: the requests handed over remain the ones the client sent, in order. A handler that passes Value and Flags on to a Set of a client, as the router does, sends exactly what was in the request and changes no request by that.", "quantifier": "all requests, protocols, numbers of connections, ways the bytes come in, orders in which connections are served, lifetimes of requests and things handlers do with them", "why_tests_cant": "Aliasing shows only when later traffic happens to overwrite the right bytes of a request somebody still holds.", "anchors": ["server/server.go:Server.readRequest", "server/server.go:Server.readAsciiRequest", "server/server.go:Server.readBinaryRequest", "server/server.go:Request", "proxy/replica_pool.go:ReplicaPool.ServeRequest"]}
{"id": "C79", "title": "Goroutines sharing a connection that holds only so many bytes", "statement": "However little a shared connection holds in each direction, goroutines that use it get to no state they could not get to on an unlimited one, so all guarantees about shared connections carry over. Without new calls only finitely many things happen, and when nothing more happens either all calls have returned, or one goroutine waits for a reply the server will not give, or one goroutine and the server wait for each other because both want to write; in these cases everybody else waits for that goroutine and no deadline is set. As long as every call in use sends one request - all operations of a text client, all but GetMulti of meta and binary clients - the last cannot happen and all calls return. A GetMulti of a meta or binary client of too many keys never succeeds; without a deadline it keeps every other goroutine from ever returning, with one it fails, and from then on every call of every goroutine fails and nothing more is sent.", "quantifier": "all numbers of goroutines, operations, schedules, connection capacities, read sizes, server contents and interleavings with the network and the server", "why_tests_cant": "Deadlock depends on buffer sizes and timing; its absence is a statement about all schedules and all capacities.", "anchors": ["client/server.go:ServerWithTextProtocol", "client/server.go:ServerWithMetaProtocol.GetMulti", "client/server.go:ServerWithBinaryProtocol.GetMulti", "server/server.go:Server.serve"]}
{"id": "C80", "title": "Goroutines sharing a client that talks to a server of this module", "statement": "Any number of goroutines share one client of this module (text, meta or binary) whose other side is a server of this module, with a handler that answers the operations in use properly. Whatever the schedule and whenever Close is called, the calls return, in the order in which they return, exactly what the handler's answers mean if it is called with the requests of one call after the other in this order; the first call that does not do so fails because the connection was closed, the other side hung up or a deadline passed, and without deadlines all later calls fail too. If nobody closes, nobody hangs up and no deadline passes, all calls return, and the handler has then been called with exactly the requests of these calls, in that order. All this holds however little the connection holds, except that a binary GetMulti whose replies and requests do not fit hangs, together with all other goroutines. If the other side is a router that nobody else uses meanwhile, the results of Get and Set are those of a single store of values.", "quantifier": "all handlers (with any state and any invariant on it), protocols, numbers of goroutines, operations and arguments in range, schedules, segmentations, connection capacities", "why_tests_cant": "It composes client, server, handler and scheduler: a test sees one handler and one schedule.", "anchors": ["client/server.go:ServerWithTextProtocol", "client/server.go:ServerWithMetaProtocol", "client/server.go:ServerWithBinaryProtocol", "server/server.go:Server.serve", "server/server.go:conn.readRequest", "server/server.go:conn.writeResponse", "proxy/replica_pool.go:ReplicaProxy.ServeRequest"]}
{"id": "C81", "title": "Many shared clients and one server process", "statement": "Any number of clients of this module (text, meta, binary in any mixture), each shared by any number of goroutines, are connected to one server process of this module, whose handler does one call at a time and answers the operations in use properly. Whatever the schedule, however the bytes are cut up and whenever clients are closed: all the handler's calls, of all clients, have one order, in which its answers are those it gives when called with one request after the other; the calls of each client return what its answers to this client mean, in the order in which they return, up to the first one that fails because the connection was closed, ended or a deadline passed (and without deadlines all later calls of that client fail). That order respects real time across clients: the handler's calls for an operation happen after everything the handler did for operations that had returned before it got its client's mutex. The server never panics, and gives up a connection only if the network lost it or the client closed it. Without new calls and connections only finitely many things happen, and when nothing more happens all calls have returned, those of undisturbed connections with results, the handler having been called with exactly their requests.", "quantifier": "all handlers (with any state and any invariant on it), numbers of clients and goroutines, protocols, operations and arguments in range, schedules of clients, network, server goroutines and handler calls, segmentations, moments of Close", "why_tests_cant": "It is a statement about all interleavings of two kinds of processes and the network between them; a test sees one of them.", "anchors": ["client/server.go:ServerWithTextProtocol", "client/server.go:ServerWithMetaProtocol", "client/server.go:ServerWithBinaryProtocol", "server/server.go:Server.Serve", "server/server.go:Server.serve", "server/server.go:conn.readRequest", "server/server.go:conn.writeResponse"]}
{"id": "C82", "title": "Which result each reply gives", "statement": "For every operation but the retrievals, every protocol and every reply the result is fixed by a table: text and meta stores, Delete and Touch by words, Increment and Decrement by a number and any two bytes, Flush by OK or the text of the error, Version by the line with prefix and line end taken off; binary operations by opcode, status and (Increment, Decrement, Version) body, with the text of each error. Text Delete and Touch take every line but NOT_FOUND for success, meta Delete takes NF for success, binary Flush looks at no status, binary Touch and Version at no opcode. For the retrievals the table has every reply that is an error: binary statuses, wrong magic bytes, lines that are neither a value nor an end, values not followed by END. The rest of the connection is left where the table says.", "quantifier": "all operations and arguments, all three protocols, all reply lines and all binary headers and bodies, all bytes that follow", "why_tests_cant": "The claim is about every possible reply, most of which no server sends in a test.", "anchors": ["client/server.go:ServerWithTextProtocol", "client/server.go:ServerWithMetaProtocol", "client/server.go:ServerWithBinaryProtocol", "client/server.go:binaryStatus", "client/server.go:binaryResponseHeader.Read"]}
{"id": "C83", "title": "Many shared clients, one router and its memcached servers", "statement": "Any number of clients of this module (text, meta, binary in any mixture), each shared by any number of goroutines, are connected to one router, which uses two rings of memcached servers through clients of its own. Whatever the schedule of goroutines, of the network, of the router's connections and of its calls on the memcached servers, however time passes and whenever clients are closed: all Gets and Sets of all clients have one order such that each client's calls return, in the order in which they return, exactly what they return if all are carried out in this order on one map, up to the first one of that client that fails because its connection was closed or a deadline passed; the primaries then hold what the map holds. Until a client has failed the order has no call of it but those that have returned and the one that is on its connection. The order respects real time: calls that have taken effect at one moment come before all that take effect later. Without new calls and connections only finitely many things happen besides time passing, and when nothing more does, all calls have returned of every client that is not closed and whose connection was accepted and not lost; if nothing happened to the connection the order has exactly these calls of it.", "quantifier": "all rings, placements, contents of the memcached servers, numbers of clients and goroutines, protocols, keys and items in range, schedules of all processes and of the network, segmentations, passage of time, moments of Close", "why_tests_cant": "It is a statement about all interleavings of three kinds of processes and the networks between them; a test sees one of them.", "anchors": ["cmd/router/main.go:main", "proxy/replica_pool.go:ReplicaProxy.ServeRequest", "cluster/cluster.go:ReplicaPool", "client/client.go:SinglePool", "client/server.go:ServerWithTextProtocol", "client/server.go:ServerWithMetaProtocol", "client/server.go:ServerWithBinaryProtocol", "server/server.go:Server.serve"]}
{"id": "C84", "title": "Pool methods over shared connections, step by step", "statement": "Any number of processes use the same memcached servers through pools of this module; each process has one connection per server (text or meta protocol), shared by all its goroutines. Whatever the schedule of goroutines, of the networks and of the servers, and wherever requests and replies are cut in pieces: for the callers and for the servers everything is as if each call on a connection were carried out at one moment - the same methods are called and return the same results in the same order, the servers hold the same, and as many commands were carried out. For replica pools over the same two rings it follows that every method for one key is, for the callers in all processes, carried out at one moment between its call and its return, by the primary of its key (except that an Increment or Decrement may be told that the key is missing although it was carried out). For SinglePools over the same servers it follows that all processes see what one memcached used by all of them could have shown them, in which a call on one key is carried out at one moment between its call and its return (also a Set with the token of a Get that has returned), a GetMulti server by server, the keys of one server at one moment, and a Flush server by server. Without new calls only finitely many things happen, something can happen until all methods have returned, and so every run can be continued until they have. All this holds as long as the connections stay up.", "quantifier": "all numbers of processes and goroutines, pools, servers and their contents, methods and arguments in range, schedules of goroutines, networks and servers, segmentations, passage of time", "why_tests_cant": "It is a statement about all interleavings of many goroutines in several processes, of the network and of the servers.", "anchors": ["client/client.go:SinglePool", "cluster/cluster.go:ReplicaPool", "client/server.go:ServerWithTextProtocol", "client/server.go:ServerWithMetaProtocol"]}
{"id": "C85", "title": "Pool methods over connections that break", "statement": "As in C84, but any connection may break at any moment, before, while or after a request is sent or its reply arrives. Then, for the callers and for the servers, everything is as if each call on a connection were carried out at one moment, except that a call on a broken connection may return an error instead: although it was carried out, or without having been, in which case it may still be carried out later (in the order in which such requests were sent on that connection) or never. No call is carried out twice: memcached carries out no more commands than methods were called. A method on one key of a SinglePool returns a connection error only if the connection of its process to the server of that key broke. Consequences: a counter that all processes increment by one is at least its old value plus the successes and at most that plus the calls, and no two calls return the same number; if all processes Add the same key without expiration, at most one is told that it succeeded, and then the key is there. When all have returned and none with a connection error, the counter is exactly its old value plus the calls, the results are exactly the numbers in between, each once, and exactly one Add succeeded, whatever other connections broke. If all calls that change a key store it without an expiration time or delete it, then once one of them has returned without an error, every Get of the key that any process calls from then on gets a value that one of the calls gave, ItemNotFound if one of them is Delete, or a connection error. If the server of a key holds it at first, without an expiration time, and all calls for it get it, count it, or store it without an expiration time, no call for it returns ItemNotFound. As long as a method has not returned, something can happen; without new calls and further broken connections only finitely many things do; so every run can be continued until all methods have returned.", "quantifier": "all numbers of processes and goroutines, pools, servers and their contents, operations and arguments in range, schedules of goroutines, networks and servers, segmentations, and all moments at which connections break", "why_tests_cant": "What an error says about whether the operation was carried out depends on the moment at which the connection broke: all moments, in all schedules.", "anchors": ["client/client.go:SinglePool", "client/server.go:ServerWithTextProtocol", "client/server.go:ServerWithMetaProtocol"]}
{"id": "C86", "title": "Pool methods over connections that break and are replaced", "statement": "As in C85, and any goroutine may call Reconnect on any of its process's clients at any moment, which may succeed or fail. Then everything is as in C85, except that a broken connection may be replaced by a new one, on which calls work again, and that a request that failed on an old connection may still be carried out after that connection has been replaced, in order with others on the same old connection, or never. Still no call is carried out twice, a counter incremented by all is at least its old value plus the successes and at most that plus the calls, no two calls return the same number, and at most one of several Adds of a key is told that it succeeded. In any part of a run: if a goroutine that is in no method at its beginning gets a connection error from a method on one key called during it, then the connection of its process to the server of such a key is broken at its end or has been replaced during it; so after a Reconnect that succeeded methods return no connection errors until the new connection breaks. When all have returned and none with a connection error, the counter is exact and exactly one Add succeeded, as in C85. What a Get gets after one of the calls that change its key has returned, and that a key that nobody removes is found, is also as in C85. As long as a method or a Reconnect has not returned, something can happen; without new calls and further broken connections only finitely many things do; so every run can be continued until all methods and all Reconnects have returned, and clients that nobody is reconnecting keep the connection they have.", "quantifier": "all numbers of processes and goroutines, pools, servers and their contents, operations and arguments in range, schedules of goroutines, networks and servers, segmentations, and all moments at which connections break and Reconnect is called, succeeds or fails", "why_tests_cant": "Whether a request left on an old connection is carried out before or after, or while, others go over the new one is up to the network: all schedules.", "anchors": ["client/server.go:ServerWithTextProtocol.Reconnect", "client/server.go:ServerWithMetaProtocol.Reconnect", "client/client.go:SinglePool"]}
{"id": "C87", "title": "Replica pools over connections that break", "statement": "Any number of processes use the same two rings of memcached servers through replica pools; any connection may break at any moment. For the callers in all processes and for the primaries everything is as if every method for one key were carried out at one moment between its call and its return by the primary of its key, except that it may return a connection error instead: after it was carried out, if the connection of its process to the primary or (not for Get) to the secondary is broken; or without having been, if the connection to the primary is broken, and then it may be carried out later, at most once, or never. A method returns a connection error for no other reason. If it returns none, its result is the one that the primary gave at that moment, except that Increment and Decrement may return ItemNotFound if the key is gone from the primary before they return. All methods return. No method causes more than three commands. If the calls that change a key store without an expiration time or delete: the primary holds what it held at first or what one of these calls leaves; so does the secondary, and if it holds what a call leaves, then so does the primary; once one of these calls has returned without an error, each of the two holds what some call leaves, never again the first contents, and every Get of the key that any process calls from then on gets a value that one of the calls gave, ItemNotFound if one of them is Delete, or a connection error. If the primary holds the key at first, without an expiration time, and all calls for it get it, count it, or store it without an expiration time, no call for it returns ItemNotFound. In particular a sole writer that gets no error has its item on both servers, and one that gets an error may find it on neither, on the primary only, or on both, never on the secondary only. If all calls add one to a counter that the primary holds, without an expiration time, it never gets less than the start plus the numbers returned, nor more than the start plus the calls; no number is returned twice; no call returns another error than a connection error; and it is exactly the start plus the calls when all have returned without an error. If all calls add the same key, to stay, at most one is told that it succeeded, then the key is there, and exactly one is when the key was not there and all have returned without a connection error.", "quantifier": "all rings, numbers of processes and goroutines, contents of the servers, one-key methods and arguments in range, schedules of goroutines, networks and servers, segmentations, and all moments at which connections break", "why_tests_cant": "Between the command to the primary and the one to the secondary anything may break, in any process, and requests of failed calls may be carried out at any later time.", "anchors": ["cluster/cluster.go:ReplicaPool", "client/server.go:ServerWithMetaProtocol", "client/client.go:SinglePool"]}
{"id": "C88", "title": "Replica pools over connections that break and are replaced", "statement": "Any number of processes use the same two rings of memcached servers through replica pools; any connection may break at any moment, and any goroutine may call Reconnect at any moment, also while methods are in progress. For the callers in all processes and for the primaries everything is as if every method for one key were carried out at one moment between its call and its return by the primary of its key, except that it may return a connection error instead: after it was carried out, or without having been, and then the primary may carry it out later, at most once, even after the connection on which it was sent has been replaced, or never. Increment and Decrement may also return ItemNotFound if the key is gone from the primary before they return. Between a moment at which a goroutine is in no method and a later one, a method it calls returns a connection error only if at the end the connection of its process to the primary of its key or (not for Get) to the secondary is broken, or has been replaced in between; so once Reconnect has replaced the broken connections, methods called from then on return no connection error until one breaks again. No method causes more than three commands. All methods and all Reconnects return. If the calls that change a key store without an expiration time or delete, then each of the two copies holds what it held at first or what one of these calls leaves, the secondary holds what one leaves only if the primary does, and once one has returned without an error both do, and every Get of the key called from then on gets a value that one of the calls gave, ItemNotFound if one is Delete, or a connection error. In particular a sole writer that sends the same item again after Reconnect, and gets no error, has it on both servers. A counter, a lock, and a key that nobody removes are as without Reconnect. But if it sends another, a late request of the first may overwrite the second on the primary only, and the two copies stay different.", "quantifier": "all rings, numbers of processes and goroutines, contents of the servers, one-key methods and arguments in range, schedules of goroutines, Reconnects, networks and servers, segmentations, and all moments at which connections break", "why_tests_cant": "The moments at which connections break, are replaced, and at which requests sent on replaced connections are carried out, are unboundedly many, and concern two servers and all processes at once.", "anchors": ["cluster/cluster.go:ReplicaPool", "client/server.go:ServerWithMetaProtocol", "client/server.go:Reconnect"]}
