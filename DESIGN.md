# Formal model of f110/go-memcached in Lean 4 — design

## 1. Shape of the model

Bytes are `UInt8`, a Go `string`/`[]byte` is `List UInt8` (`Bytes`). Go `int`,
`int64` are `Int`, unsigned numbers `Nat`; every conversion that truncates
(`uint16(len(key))`, `uint32(exp)`, `int64(u)`) is an explicit `%`/wrap in the
model.  Errors are values (`Err`), Go panics are an explicit outcome:

    inductive Res α | ok (a : α) | err (e : Err) | panic

A connection's inbound stream is the list of bytes the peer sends before the
connection ends; a reader is `Rd α := Bytes → Res α × Bytes` (result, unread
rest).  Running off the end is the error `Err.io` (EOF, reset or deadline).  All
client operations first write and flush the whole request and only then read, so
a client operation is a `Call α` = request bytes + reader.  Three refinements
justify this view: `Go/Bufio.lean` + `Client/Segmented.lean` replace the stream by
a `bufio.Reader` on a connection delivering arbitrary pieces (C31: same results);
`Client/Life.lean` adds open/close/reconnect (C32, C33); `Client/Sched.lean`
splits every operation into its lock, field accesses, partial writes and partial
arrivals, interleaved among any number of goroutines (C30, C35, C54: as long as
nothing failed the operations behave as if called one after the other).

Layers (all under `lean/Verif/`; every definition cites file and lines):

| module | models |
|---|---|
| `Go/Basic`, `Go/Fscanf` | the parts of Go's library the code leans on: `strings.Split/Join/Trim…`, `strconv.ParseInt/ParseUint/Atoi/FormatInt`, `encoding/binary`, `bufio.Reader.ReadSlice/ReadBytes` on a stream, `io.ReadFull`, `fmt.Fscanf` for the two formats used (including UTF-8 decoding of the key), `make`/slicing/indexing panics |
| `Go/Bufio` | `bufio.Reader` with its 4096-byte buffer and `Read` calls of arbitrary sizes |
| `Go/BufMem` | the same reader with its buffer in memory: `ReadSlice` gives a part of the buffer |
| `Go/BufWrite`, `Go/Puts` | `bufio.Writer` with its 4096-byte buffer over a connection whose writes may fail after any number of bytes; programs of `Write`, `WriteString`, `Flush` with checked or ignored errors |
| `Go/Slice` | `[]byte` with backing array, offset, length, capacity; `append`, `copy` |
| `Go/Act` | computations on a world that keep their effects when they fail |
| `Client/Text`, `Meta`, `Binary` | client/server.go, operation by operation |
| `Client/Headers` | the `sync.Pool` of request headers |
| `Client/Memory` | the three storing operations on memory |
| `Client/Segmented` | the same operations on a `bufio.Reader` |
| `Client/Result`, `MemSession` | the reading parts of all operations with slices of the buffer, and items that hold slices; whole operations on memory |
| `Client/Puts`, `Server/Puts` | the writing half of every operation and of every reply, statement by statement |
| `Client/Buffer` | the write buffer of a binary connection across a recovered panic |
| `Client/Life`, `Heartbeat`, `Sched`, `Reconn`, `Heart` | Close/Reconnect, the heartbeat goroutine, concurrent callers, concurrent callers that also reconnect, the same with options and a heartbeat |
| `Client/Joint` | any number of clients (`Client/Sched`), each shared by goroutines, connected to one server process (`Server/Accept`) |
| `Cluster/Wired` | goroutines of any number of processes that run pool methods over shared connections to memcached servers, all steps of the connections included |
| `Cluster/Rewired` | the same with clients that have Reconnect, and all the connections they have dialled, each with its own end at memcached |
| `Client/Narrow` | several goroutines using one client (`Client/Sched`) on such a connection (`Client/Flow`) |
| `Client/Flow` | one operation on a connection that holds only so many bytes in each direction |
| `Client/Race` | which shared variables a goroutine touches next |
| `Pool/Ring`, `Single`, `Hash`, `RingData` | client/ring.go, client/client.go; SHA-1 and CRC-32 for the concrete rings |
| `Server/Read`, `Write`, `Serve` | server/server.go: request readers, reply writers, serve loop |
| `Server/Memory` | the request readers on memory: which arrays a request is made of |
| `Server/Accept` | the accept loop and any number of connections at once |
| `Cluster/Replica`, `Sched` | cluster/cluster.go, sequentially and with interleaved callers |
| `Cluster/Links` | the router's connections to memcached, which may break at any moment and are never dialled again |
| `Proxy/Replica`, `Sched` | proxy/replica_pool.go (the router's handler), sequentially and used by all client connections at once |
| `Proxy/Main` | cmd/router/main.go: connecting to the configured servers, listening |
| `Mc/*`, `Spec/Kv` | *environment, not code of the repository*: a reference memcached (key → value, flags, expiry, cas; byte protocols per memcached's protocol.txt) |
| `Pool/Sched` | client/client.go with interleaved callers |
| `Pool/OverMc`, `Cluster/OverMc`, `Mc/Session`, `Mc/Many` | client, several clients, pool and replica pool connected to reference memcached servers |
| `Spec/*` | the small specifications the theorems are stated against, independent of the model's helpers |
| `Lemmas/*` | auxiliary lemmas |
| `Props/*` | the property theorems `Cnn_…`, each with concrete instances of its hypotheses |

Hash functions (SHA-1 prefix, CRC32) are parameters of the ring: the theorems
hold for every hash function.  `sort.Slice` is any sorting permutation, map
iteration is any order, `sync.Pool.Get` may return any header ever put or a new
one.  `Handler` (server), `Server` (pool) and the peer of a connection are
arbitrary wherever the property allows it.

## 2. Method per property

| id | modelled | proof |
|---|---|---|
| C01 C02 | `Ring.Pick` loop with its `lower`/`upper` indices | loop invariant by induction on the interval; exact-hit case characterised, ideal refuted by a concrete ring |
| C03 C04 C05 | `NewRing` as relation (points, any sorted permutation) | declarative description of Pick ⇒ uniqueness ⇒ invariance under permutation/extension |
| C06 C07 C09 | `GetMulti`, `Each`, map iteration as arbitrary permutation | induction over key list / server order |
| C08 | pool over state machines | refinement by induction over operations |
| C10–C12, C17, C18 | client request writers, server readers | byte-level round trip: `read (wire ++ rest) = (ok req, rest)` |
| C13–C15 | server writers, client readers | same, other direction |
| C16, C36, C37 | `serve` loop | induction over request list, well-founded recursion on the stream |
| C19–C21, C23, C24, C27, C51 | client readers on arbitrary streams | case analysis of the readers; refutations by concrete replies |
| C22 | readers on every strict prefix | monotonicity: a reader that succeeds on a prefix succeeds identically on the whole |
| C25, C26 | GetMulti loops | induction over the reply list |
| C28 | recycled request header as an argument, histories with a header pool | equality for all previous header contents; refutation for incr |
| C29 | slices with backing array, offset, len, cap | memory before/after |
| C30, C35, C54 | goroutines × mutex × connection, small steps | invariants over all executions, by induction on reachability; witnesses for the failing schedules |
| C31 | chunked `bufio.Reader` | refinement to the flat reader, operation by operation |
| C32, C33, C34 | life-cycle and heartbeat state machines | induction over event lists / executions |
| C38 | server readers | exact characterisation of panic |
| C39, C40 | server writers | computation for all requests/responses |
| C41 | cluster operations over arbitrary servers with a call trace | case analysis |
| C42–C45 | cluster over reference memcached | invariant by induction; refutations by concrete states/schedules |
| C46–C50, C53 | proxy + server + cluster + memcached | composition of the above |
| C52 | clients (text, meta, binary with recycled headers) over reference memcached bytes | refinement per call, induction over history |
| C56 | server process with many connections | invariants over all interleavings |
| C57 | write buffer after a recovered panic | computation of what memcached makes of the leftover bytes |
| C58 | cluster with interleaved callers over reference memcached | simulation by atomic calls on the primaries, invariants over all schedules; refutation by a schedule |
| C59 | router process: server with many connections, interleaved calls on memcached | simulation (trace inclusion) by an atomic shelf, then per-client replay of the wire formats |
| C60 | router over connections that may break (`Cluster/Links`) | step-by-step simulation by a site with lost servers, induction over the history |
| C61 | `main` of the router as a relation between configuration, dial results and outcome | induction over the server lists; placement by naming the ring's nodes |
| C62, C67 | pool operations over arbitrary servers; `Pool/Sched` | case analysis; linearization by induction over schedules |
| C63 | server readers of mg/ms options | induction over the options, exact characterisation |
| C64 | client GetMulti, server, handler composed | induction over the keys |
| C65, C66, C70 | client writers and server readers, client readers as grammars | equivalence `reader accepts ↔ grammar`, both directions |
| C68, C73 | `Client/Sched`, `Client/Reconn` with a termination measure | measure decreases along every step; analysis of the states without successor |
| C69, C71 | `Client/Reconn`, `Client/Heart` (any number of connections, timer) | invariants over all executions, simulation by sequential calls per connection |
| C72 | accesses to shared variables (`Client/Race`) | invariant: who may be where while the mutex is held |
| C74 | readers on memory (`Go/BufMem`, `Client/Result`) | simulation of the readers on values, ownership invariant over histories |
| C75 | any number of clients of the three protocols over one reference memcached (`Mc/Many`) | refinement per call (C52), induction over the history; backward invariant for tokens |
| C76 | `bufio.Writer` over failing writes (`Go/BufWrite`, `Client/Puts`, `Server/Puts`) | invariant of the writer (sent ++ buffer = bytes handed over), induction over operations and requests |
| C77 | one operation over a connection of bounded capacity (`Client/Flow`), byte by byte | invariant over all interleavings (bytes in transit = replies to what was taken), termination measure, analysis of states without successor |
| C78 | the server's request readers on memory (`Server/Memory`), any number of connections | simulation of the readers on values, ownership invariant over all histories |
| C79 | goroutines on a connection of bounded capacity (`Client/Narrow`) | refinement of `Client/Sched` (what has arrived is a prefix of the server's output), lexicographic termination measure, analysis of states at rest, invariants along a run that is too much |
| C80 | the server of `Server/Serve` as the other side of `Client/Sched` and `Client/Narrow` (`Spec/Served`) | what the server says is a prefix-monotone function of its input (from framing); the conversation of C16 gives the results one by one; C30, C68 and C79 instantiated |
| C81 | all clients and the server process in one transition system (`Client/Joint`, `Spec/Joint`) | each client's part of a run is a run of `Client/Sched` against the server of C80 with a handler that replays the recorded answers; the server's part is a run of C56; then C30/C80 per client and C56 for the order; progress by a lexicographic measure over all clients |
| C82 | the readers of `Client/Text`, `Client/Meta`, `Client/Binary` against a table of words, statuses and error texts (`Spec/Meaning`) | case analysis per operation; number lines by the grammar of numbers (C65) |
| C83 | the transition system of C81 with the router's process (`Proxy/Sched`) as the handler (`Spec/JointRouter`) | a run of the whole is a run with a shelf that answers at once in place of the router (the simulation of C59, step by step, with the passing of time brought forward), to which C81 applies; what each client was told is then read off the shelf's calls; termination by the measure of C81 with the number of memcached calls a request still makes |
| C84 | all processes, connections and servers in one transition system (`Cluster/Wired`), and the one in which a call on a connection is one step (`Spec/Wired`) | forward simulation: the moment of a call is when memcached carries its command out; a connection is quiet, asking or told (its reply, or the rest of it, is on its way); for replica pools composed with the simulation of C59, for SinglePools with that of C67 (`Spec/WiredPool`); termination: whatever happens brings exactly one goroutine on, in a well-founded order, and finitely many goroutines are at work |
| C85 | the system of C84 with connections that break at any moment (`Cluster/Wired`), against one in which a call is carried out at one moment, lost, failed or carried out late (`Spec/WiredBreak`) | forward simulation: besides quiet, asking and told a connection may be dead (a write has failed; what was sent and not carried out is the beginning of the requests that have failed); methods of SinglePool by a second simulation (`FrailRun`), counter and lock by invariants on its runs, exact ones by counting calls against results; termination by the measure of C84, where a broken connection lets its caller fail |
| C86 | the system of C85 with clients that have Reconnect (`Cluster/Rewired`), against one in which broken connections are replaced (`Spec/Rewired`) | the connection in use, and only it, is seen as a connection of C85 (`view`): every step of a client with Reconnect is a step or no step of it, or replaces it by a new one while nobody is using it; what has been sent on old connections and not carried out is the beginning of the requests that failed on them; methods of SinglePool by lifting the simulation of C85; at most once, counter and lock are invariants of the looser runs `LooseRun`; errors by an invariant relative to any earlier moment; termination by the measure of C85 on the connections in use, together with how far each Reconnect is from its end |
| C87 | the system of C85 with replica pools over meta connections, against one in which a method is carried out at one moment by the primary (`Spec/WiredReplica`) | on top of `C85_refines`: a second simulation (`TornRel`) from calls to methods: where a method is in its program (`Stage` of C58), which commands are left over, and that left-over commands to a secondary do not touch a primary; for the two copies an invariant over all runs (`Durable`): which of both holds a written value, for methods in progress by stage, and for requests still adrift |
| C88 | the system of C86 with replica pools over meta connections | the connections in use are seen as connections of a system in which broken ones are replaced (`C86_refines`); that is simulated as in C87 (`AgainRun`, `again_run`: a call left on a replaced connection stays adrift); the invariants of C87 are proved for such runs at once |
| C55 | binary client over reference memcached, unread bytes carried along | exact left-over per call, invariant on the misalignment |

Some properties a user would like to have are false of this code.  For those the
theorem states exactly what happens instead (for all inputs) and a `…_concrete`
or counterexample theorem exhibits it: C02, C04 (shared hashes), C17, C18 (flags
of 2^31 and more), C20/C21 (text Delete/Touch succeed on any other line), C23 (16-bit
wrap), C24 (unread bodies), C25, C28, C29, C33, C34, C35, C38, C39, C43, C44, C45,
C48–C51, C53–C55, parts of C56–C58, C60, C61, C71, C73–C75, C77 (a large `GetMulti`).

Nothing is left out as inexpressible; what the model cannot exhibit is listed in
section 3 and each such restriction is repeated at the definition concerned.

## 3. Trusted base

* Lean's kernel; the axioms of every `Cnn_…` theorem are among `propext`,
  `Classical.choice`, `Quot.sound` (`#print axioms`); no axiom is added, no
  proof is left open, nothing rests on compiled code.
* The reading of `/repo` into the model (each definition cites file and lines).
* The reading of Go's library into `Go/*` (`strconv`, `fmt.Fscanf`, `bufio`,
  `encoding/binary`, `append`/`copy`), and of the language: panics, integer
  conversions, map iteration order, `sort.Slice`, `sync.Pool`, `sync.Mutex`,
  `net.Conn` (bytes arrive in order; after `Close` reads and writes fail),
  `time.Timer`.
* For C08, C18 (memcached halves), C25, C27, C30_memcached, C42–C54 as far as they
  speak about memcached: the reference memcached of `Mc/*` and `Spec/Kv`.
* `Pool/RingData` lists point hashes of a few servers; they are *proved* equal to
  SHA-1 as defined in `Pool/Hash` (kernel evaluation), which is itself a reading
  of FIPS 180; only the concrete-ring theorems (C01_pools…, C02_wrong_server,
  C03_exact_hit_moves, …) use them.

Simplifications (repeated at the definitions):

* An operation on an open connection is request bytes + reader.  The write side of
  `bufio` is not chunked in `Call`; in `Sched` it is, and `Client/Puts` has it with all write
  errors (C76: without errors nothing differs); `Client/Buffer` (C57) has the bytes a recovered
  panic leaves in the buffer.
* `ReadSlice`'s result is a value in `Client/Text`, `Meta`, `Binary`; in `Client/Result` it is a
  slice of the buffer, and C74 proves that both give the same. In `Client/Result` the flags of
  a meta item are allocated after the header line has been scanned instead of in the scan, and
  one response header stands for all in the `sync.Pool`.
* `Server/Memory`: reading a request is one step among those of other connections and handlers (the
  connections share no memory, so finer steps give the same), strings are values, the arrays
  `ReadBytes` puts full buffers aside in are left out.
* `Life`: the fields `raw` and `conn` always refer to the same connection;
  operations are atomic there.
* `Sched`: sequentially consistent memory (the races between `Close` and
  operations are, strictly, undefined); `Timeout` constant and non-negative;
  a goroutine that panics stops the program. Reconnect is in `Client/Reconn`, which has
  as many connections as are dialled (C69) and is otherwise the same; `Client/Heart` adds the
  heartbeat goroutine and its timer to it (C71).
* `Pool/Sched`, `Cluster/Sched`, `Proxy/Sched`: one call on a connection is one step (justified by C30).
* `sync.Pool` never loses a header in the model (more choices than in reality).
* Server: in `Server/Serve` and `Server/Accept` writes do not fail; write errors are in
  `Server/Puts` (C76). `Server/Serve` is one
  connection (handler state threaded through); `Server/Accept` is the process with the accept
  loop, one goroutine per connection and a handler with overlapping calls. There a request is
  taken from the stream in one step once all its bytes have arrived.
* Time is whole seconds and passes between calls, never during one.
* `Cluster/Wired` and `Cluster/Rewired`: connections stay up (C84) or break at any moment (C85) and are replaced (C86), deadlines do not pass and nobody calls Close (C30, C35, C54 have what happens then); no
  heartbeats (C34, C71); what is sent and not yet received is unbounded (C79 for finite buffers); what memcached does with a
  command is one step.
* `Client/Joint`: what a client has sent and the server not yet received is unbounded; the server sees the end of the stream only
  after the client has closed; the handler's calls are atomic (`atomically`); no Reconnect, no heartbeat.
* `Client/Narrow`: single bytes move at a time; the client's side learns that the other one has hung up only
  after all that is to arrive has arrived; the server reads on only after it has written its reply.

Not modelled: memory exhaustion below 2^48 bytes, weak memory (by C72 programs that do not call
Close have no data races on a client, so Go guarantees them interleaved executions), TCP itself,
`net.Listen` beyond succeeding or failing,
`testutil`, log output, the parsing of the YAML configuration.

## 4. Tests of the theorems

`seeded/gen.py` lists edits a realistic bug (or fix) would make; `seeded/mutate.py`
applies each to a scratch copy, rebuilds, and finds which `Cnn_…` theorems are lost.
`seeded/LOG.jsonl` has the outcome of each and what was tightened.

## 5. Theorems per property

* **C01** Ring.Pick selects the owning point (proved). For every sorted ring; existence, uniqueness and equality with Pick. C01_pools_without_clash shows concrete real-size pools meet the hypotheses. Theorems: `C01_pick`, `C01_pick_unique`, `C01_pools_without_clash`.
* **C02** Pick on an exact hash hit (proved). Both halves: termination with a configured server at or after the hit, and a concrete ring where the wrong server is chosen. Theorems: `C02_hit`, `C02_hit_last`, `C02_wrong_server`.
* **C03** Consistent hashing: growth moves keys only to the new server (proved). Growth theorem for keys not exactly on a point and rings without shared point hashes; C03_exact_hit_moves shows the first condition is needed. Theorems: `C03_add_server`, `C03_exact_hit_moves`.
* **C04** Ring independent of configuration order (proved). Order independence without shared point hashes; C04_clash shows two servers sharing a hash break it. Theorems: `C04_order`, `C04_clash`.
* **C05** Ring membership (proved). Size, share, membership, panic on the empty ring, Find. Theorems: `C05_size`, `C05_share`, `C05_member`, `C05_empty_panics`, `C05_find`, `C05_find_picked`.
* **C06** GetMulti routing (proved). All key lists, rings and map orders (map iteration order is an argument of the model). Theorems: `C06_routing`.
* **C07** GetMulti merge and error (proved). All answers and map orders; error case and hit case. Theorems: `C07_error`, `C07_any_failure`, `C07_hits`.
* **C08** A pool behaves as one map (proved). Bisimulation with one map for all operations of Op; results compared up to the opaque cas token, the server name and the order of GetMulti items. Only programs with GetMulti or Flush need distinct server names. Theorems: `C08_pool_is_one_map`.
* **C09** Flush, Version and Close visit servers (proved). Flush/Version/Close on SinglePool and Ring.Close, ok and error cases. Theorems: `C09_flush_ok`, `C09_flush_err`, `C09_close_ok`, `C09_close_err`, `C09_version_ok`, `C09_version_err`, `C09_ring_close`.
* **C10** Binary requests arrive as sent (proved). One theorem per operation plus the key-length boundary (65536 bytes is misread). Theorems: `C10_get`, `C10_getMulti`, `C10_set`, `C10_add`, `C10_replace`, `C10_delete`, `C10_increment`, `C10_decrement`, `C10_touch`, `C10_flush`, `C10_version`, `C10_long_key_misread`.
* **C11** Text requests arrive as sent (proved). One theorem per operation. Theorems: `C11_get`, `C11_getMulti`, `C11_getMulti_nil`, `C11_set`, `C11_add`, `C11_replace`, `C11_delete`, `C11_increment`, `C11_decrement`, `C11_touch`, `C11_flush`, `C11_version`.
* **C12** Meta requests arrive as sent (proved). One theorem per operation, plus the two meta requests the server rejects. Theorems: `C12_get`, `C12_set`, `C12_delete`, `C12_add`, `C12_replace`, `C12_increment`, `C12_decrement`, `C12_flush`, `C12_version`, `C12_touch_rejected`, `C12_getMulti_noop_rejected`.
* **C13** Get over text protocol returns what the handler returned (proved).  Theorems: `C13_get`, `C13_get_miss`, `C13_getMulti`.
* **C14** Get over meta protocol returns what the handler returned (proved).  Theorems: `C14_get`, `C14_get_miss`.
* **C15** Get over binary protocol returns what the handler returned (proved).  Theorems: `C15_get`, `C15_getMulti`.
* **C16** Pipelined sessions stay framed (proved). All sequences, all handlers, by induction on the session. C16_operations/C16_every state it over sequences of client operations (what the caller asked for and what the handler was willing to answer), not over what the client's readers accept. Theorems: `C16_operations`, `C16_operations_lockstep`, `C16_every`, `C16_session`, `C16_lockstep`.
* **C17** Key hygiene / request injection (proved). Text and meta: one command per request for plain keys; concrete injections through CRLF and through a space in the key. Theorems: `C17_text`, `C17_meta`, `C17_injection`, `C17_injection_unread`, `C17_space`.
* **C18** Flag range (proved). All flag values, per protocol and peer; failing halves proved as failing for every value. Theorems: `C18_text_below`, `C18_text_above`, `C18_meta_below`, `C18_meta_above`, `C18_binary`, `C18_text_read`, `C18_meta_read`, `C18_memcached_text`, `C18_memcached_meta`.
* **C19** No false success for Set (proved). Iff characterisations per protocol. Theorems: `C19_text`, `C19_meta`, `C19_binary`, `C19_text_else`, `C19_meta_else`, `C19_binary_else`.
* **C20** No false success for Add, Replace, Delete, Touch, Flush, Increment (proved). Iff characterisations per operation and protocol, including the three refuted cases. Theorems: `C20_add_text`, `C20_add_meta`, `C20_replace_text`, `C20_replace_meta`, `C20_flush_text`, `C20_flush_meta`, `C20_arith_text`, `C20_arith_meta`, `C20_delete_meta`, `C20_touch_meta`, `C20_delete_text`, `C20_touch_text`, `C20_false_success`, `C20_add_binary`, `C20_replace_binary`, `C20_delete_binary`, `C20_arith_binary`, `C20_touch_binary`, `C20_flush_binary`.
* **C21** Error identity (proved). Iff characterisations per operation and protocol. Theorems: `C21_get_text`, `C21_set_text`, `C21_add_text`, `C21_add_meta`, `C21_replace_text`, `C21_replace_meta`, `C21_delete_text`, `C21_touch_text`, `C21_arith_text`, `C21_arith_meta`, `C21_get_meta`, `C21_set_meta`, `C21_delete_meta`, `C21_touch_meta`, `C21_get_binary`, `C21_set_binary`, `C21_add_binary`, `C21_replace_binary`, `C21_delete_binary`, `C21_arith_binary`, `C21_touch_binary`.
* **C22** Truncated replies never succeed (proved). All operations of the three protocols, every proper prefix of what the operation reads. Theorems: `C22_text`, `C22_meta`, `C22_binary`, `C22_version`, `C22_no_reply`.
* **C23** Value bytes are opaque (proved). Text Get/GetMulti, meta Get, binary Get; the two cases in which it is false (VA line without tokens, 16-bit length wrap) are theorems as well. Theorems: `C23_text_get`, `C23_text_getMulti`, `C23_meta_get`, `C23_meta_no_tokens`, `C23_binary_get`, `C23_binary_wrap`.
* **C24** Connection stays in sync after every complete reply (proved). All single-line replies, all non-value lines of Get, binary operations by operation; the operations that leave the body unread, and the failure of the next call, are theorems. Theorems: `C24_text_lines`, `C24_meta_lines`, `C24_get_lines`, `C24_binary_reads`, `C24_binary_body_left`, `C24_next_fails`.
* **C25** Meta GetMulti (proved). Both the all-present case and the refutation with a missing key. Theorems: `C25_all_present`, `C25_first_missing`, `C25_wrong_value`.
* **C26** Text and binary GetMulti return exactly the hits (proved). Text: any list of VALUE blocks and END; binary: any list of hit headers with their parts and the no-op reply. Theorems: `C26_binary_getMulti`, `C26_text_getMulti`.
* **C27** Counter results (proved). Text and meta against the memcached model (any counter), binary for every reply. Theorems: `C27_memcached`, `C27_binary`.
* **C28** Binary requests do not depend on earlier requests (proved). Histories of calls with a nondeterministic header pool; C28_counting says exactly which stale Cas Increment/Decrement can carry, C28_stale exhibits it. C28_memcached: memcached then refuses the counting. Theorems: `C28_memcached`, `C28_independent`, `C28_history`, `C28_counting`, `C28_counting_clean`, `C28_stale`, `C28_stale_differs`.
* **C29** Caller's memory is not modified (proved). Memory model with arrays, offset, length, capacity; exact effect of text/meta Set, no effect of the others; the calls also refine the flat model used elsewhere. Theorems: `C29_text_set_sends`, `C29_meta_set_sends`, `C29_store_sends`, `C29_text_set`, `C29_meta_set`, `C29_text_set_clean`, `C29_store`, `C29_binary`, `C29_binary_sends`, `C29_neighbour`.
* **C30** Concurrent callers get their own replies (proved). Shared-connection model with every lock, field access, partial write and arrival a step; any server, any number of goroutines, Close allowed; C30_own_reply for exact replies, C30_memcached_text/meta/binary against the reference memcached; binary operations whose replies are read to the end (the others: C55); C30_binary_concrete. Theorems: `C30_one_outstanding`, `C30_linear`, `C30_sequential`, `C30_own_reply`, `C30_memcached_text`, `C30_memcached_meta`, `C30_memcached_binary`, `C30_binary_concrete`, `C30_no_lock_leak`.
* **C31** Independence of TCP segmentation (proved). bufio.Reader (ReadSlice, ReadBytes, Read, Peek) and io.ReadFull modelled over a connection that delivers arbitrary pieces; every client operation, every sequence of operations, the serve loop and whole memcached histories. Theorems: `C31_text`, `C31_meta`, `C31_binary`, `C31_version`, `C31_any_two`, `C31_serve`, `C31_text_history`, `C31_meta_history`.
* **C32** Closed text connection (proved). All histories of operations, Close and Reconnect of the lifecycle model. Theorems: `C32_text`, `C32_close_is_final`.
* **C33** Reconnect (proved). Both the working half and the four defects (failed dial final, Close of meta/binary final, text client not closable, stuck). Theorems: `C33_fresh`, `C33_reconnects`, `C33_failed_dial_is_final`, `C33_text_failed_dial`, `C33_text_not_closable`, `C33_text_stuck`.
* **C34** Heartbeat (proved). All schedules of timer, close and probe outcomes; at most one probe, leak of the goroutine. Theorems: `C34_one_probe`, `C34_probed`, `C34_leak`, `C34_returns_only`, `C34_bounded`, `C34_text_ends`, `C34_text_give_up`.
* **C35** Close during an operation (proved). C35_clean/unblocked/no_panic for all schedules; the two panicking schedules for every call. Theorems: `C35_clean`, `C35_unblocked`, `C35_no_panic`, `C35_no_panic_others`, `C35_timeout_panics`, `C35_double_close_panics`.
* **C36** Server answers requests one by one in order (proved).  Theorems: `C36_serve`, `C36_in_order`, `C36_complete`, `C36_online`.
* **C37** Protocol detection (proved).  Theorems: `C37_first_byte`, `C37_fixed`, `C37_empty`.
* **C38** Inputs that crash the server (proved). Exact characterisation of the panicking requests over all byte streams and protocol states (readers), writer panics for empty response lists, and the whole serve loop. Theorems: `C38_write`, `C38_serve`, `C38_first`, `C38_case`, `C38_handler_case`, `C38_parse`.
* **C39** Error answers of the server (proved). Silent for all but Get; Get writes an empty hit in each protocol; the client side shown to take it for a hit. Theorems: `C39_silent`, `C39_carries_on`, `C39_get`, `C39_get_bytes`, `C39_case`.
* **C40** Server reply shape (proved).  Theorems: `C40_binary_header`, `C40_binary_set`, `C40_binary_add`, `C40_binary_replace`, `C40_binary_delete`, `C40_binary_touch`, `C40_binary_flush`, `C40_binary_version`, `C40_binary_increment`, `C40_binary_decrement`, `C40_meta_set`, `C40_meta_delete`, `C40_meta_add`, `C40_meta_replace`, `C40_meta_increment`, `C40_meta_decrement`, `C40_meta_flush`, `C40_meta_version`, `C40_text_get`, `C40_text_set`, `C40_text_add`, `C40_text_replace`, `C40_text_delete`, `C40_text_increment`, `C40_text_decrement`, `C40_text_touch`, `C40_text_flush`, `C40_text_version`.
* **C41** Replica write order (proved). All operations, arbitrary server behaviours. Theorems: `C41_set`, `C41_add`, `C41_replace`, `C41_delete`, `C41_increment`, `C41_decrement`, `C41_get`, `C41_getMulti`, `C41_picks`.
* **C42** Replicas agree (proved). ReplicaPool over reference memcached servers (Mc), meta protocol, arbitrary hashes; C42_call is the exact effect of each call, C42_history the agreement after any history. Theorems: `C42_call`, `C42_step`, `C42_history`.
* **C43** Replicas agree after Increment/Decrement (proved). Exact characterisation (iff) of when the copies agree after a successful Increment/Decrement; counterexamples to the stronger reading are theorems (never-expiring items, results of 2^63 and more). Theorems: `C43_count`, `C43_agree`, `C43_failed`, `C43_past_int64`, `C43_concrete`.
* **C44** Compare-and-swap through a replica pool (proved). Exact outcome of Set with the primary's token, for all states of both replicas; C44_reachable/C44_concrete: the failing case is reached by ordinary use. Theorems: `C44_set`, `C44_add`, `C44_reachable`, `C44_concrete`.
* **C45** Concurrent increments through a replica pool (proved). Any number of goroutines, any schedule of the individual connection calls (atomic: mutex of the connection, C30, and atomic memcached commands) and of passing time; C45_sequential ties the call sequences to the pool's methods. Theorems: `C45_sequential`, `C45_no_lost_update`, `C45_results`, `C45_secondary_not_invented`, `C45_unique_numbers`, `C45_secondary_stale`, `C45_concrete`.
* **C46** Router serves only get and set (proved). For every request (any bytes the server reads) and any backends; the client operations concerned are enumerated in C46_operations. Theorems: `C46_handler`, `C46_closes`, `C46_client`, `C46_operations`.
* **C47** Router end to end (proved). serve loop + request readers + proxy + pool + meta client + reference memcached + reply writers + client readers composed at byte level; C47_history: any history, any mix of clients, any delays. Theorems: `C47_set`, `C47_get`, `C47_round_trip`, `C47_history`, `C47_concrete`, `C47_history_concrete`.
* **C48** Router get miss (proved). The property as a user would want it is false; what happens instead is proved for all keys, per protocol. Theorems: `C48_miss`, `C48_text`, `C48_concrete`, `C48_text_concrete`.
* **C49** Router and text clients (proved). False as wanted; independence of the key is proved for all keys, all backends. Theorems: `C49_lookup`, `C49_key_ignored`, `C49_same_result`, `C49_concrete`.
* **C50** Flags through the router (proved). False as wanted; proved that Get never returns flags and that a meta Set stores none, and that text and binary Sets do store theirs. Theorems: `C50_get`, `C50_meta_set`, `C50_other_set`, `C50_concrete`, `C50_other_concrete`.
* **C51** Replies that crash the client (proved). Equivalences for every operation of the three protocols (meta GetMulti: necessary condition and the first-reply case), and for the arguments. Theorems: `C51_never`, `C51_bare_newline`, `C51_text_get`, `C51_text_getMulti`, `C51_meta_get`, `C51_meta_getMulti`, `C51_binary_get`, `C51_binary_arith`, `C51_binary_getMulti`, `C51_arguments`.
* **C52** Client against memcached: every history (proved). Every history over a text connection; also meta histories (Touch excluded: it sends `md`; GetMulti of present keys only). C52_binary_call/_history: the binary client with headers recycled in any order; every exception is explicit (leftOver, C55; UsesToken, C28). Theorems: `C52_binary_call`, `C52_binary_history`, `C52_text_call`, `C52_text_history`, `C52_meta_call`, `C52_meta_history`.
* **C53** Tokens through the router (proved). False as wanted; proved for all items and states that no reply is sent. Theorems: `C53_stale`, `C53_split`, `C53_concrete`.
* **C54** After a timeout (proved). False as wanted; C54_late_reply for any server and pair of calls, C54_wrong_items: the shift by one persists for all later Gets; C54_shifted: any number of calls of any kind; C54_meta_mislabelled, C54_binary_mislabelled: values under the wrong key; C54_mislabelled_concrete. Theorems: `C54_late_reply`, `C54_wrong_items`, `C54_shifted`, `C54_meta_mislabelled`, `C54_binary_mislabelled`, `C54_mislabelled_concrete`.
* **C55** Binary connection after a refusal (proved). False as wanted; C55_next_call for any next operation, C55_for_good: no later change is ever acknowledged. Theorems: `C55_next_call`, `C55_for_good`.
* **C56** Concurrent connections to a server (proved). The good part by invariants over all interleavings (C56_session/prefix/caught_up/linear/real_time/no_blocking/answerable/clients); the shared-fate part is C56_crash/dead, with C56_down its converse. C56_operations states C56_clients over client operations of any protocol mix. Theorems: `C56_session`, `C56_prefix`, `C56_caught_up`, `C56_frame`, `C56_no_blocking`, `C56_no_blocking_return`, `C56_clients`, `C56_crash`, `C56_dead`, `C56_down`, `C56_linear`, `C56_real_time`, `C56_answerable`, `C56_operations`.
* **C57** Connection after a recovered panic (proved). False as wanted for binary connections: C57_binary/mistaken/waits for any next call, C57_get_stores for a Get; C57_meta is the good case, C57_only the list of calls concerned. Theorems: `C57_only`, `C57_meta`, `C57_binary`, `C57_mistaken`, `C57_waits`, `C57_get_stores`.
* **C58** Concurrent calls on a ReplicaPool (proved). For the callers: C58_linear (with the one exception stated) and C58_returns; secondaries: C58_secondary and C58_agree; the failing part: C58_diverge, C58_concrete. GetMulti is a sequence of calls on single servers and is not among the operations (C41 covers it sequentially). Theorems: `C58_agree`, `C58_diverge`, `C58_concrete`, `C58_linear`, `C58_returns`, `C58_secondary`.
* **C59** Router with concurrent clients (proved). For well-formed requests without token over healthy memcached servers (the failing rest: C46-C53). C59_atomic: trace inclusion in an atomic shelf; C59_linear; C59_clients: end to end in terms of client calls; C59_no_waiting for all requests and servers; C59_sequential ties the interleaved handler to the one of C46-C53. Theorems: `C59_clients`, `C59_concrete`, `C59_atomic`, `C59_linear`, `C59_sequential`, `C59_no_waiting`.
* **C60** Router whose memcached connections break (proved). False as wanted (never reconnects). C60_history: exact answers when connections break between calls; C60_any_moment: what may be seen when they break at any moment; C60_never_again, C60_half_written, C60_others_unaffected are consequences. Calls one after the other; calls of C59 kind (good arguments, healthy servers as long as connected). Theorems: `C60_history`, `C60_any_moment`, `C60_never_again`, `C60_half_written`, `C60_others_unaffected`, `C60_concrete`.
* **C61** Starting a router (proved). C61_serves/exits/one_dead/no_config/cases/iff: the start; C61_placement: names decide (without shared points, C04); C61_two_rings: the hypotheses of C42-C60 hold of every router started with servers in both roles; C61_no_secondary, C61_no_primary: the failing configurations. YAML parsing is not modelled. Theorems: `C61_serves`, `C61_exits`, `C61_one_dead`, `C61_cases`, `C61_no_config`, `C61_iff`, `C61_two_rings`, `C61_placement`, `C61_no_secondary`, `C61_no_primary`, `C61_concrete`, `C61_dead_concrete`, `C61_placement_concrete`, `C61_no_secondary_concrete`.
* **C62** A pool passes a call on unchanged (proved). One theorem per method, over arbitrary servers with a log of calls; C62_always: a server exists for every key; C62_empty: the panic. Theorems: `C62_get`, `C62_set`, `C62_add`, `C62_replace`, `C62_delete`, `C62_increment`, `C62_decrement`, `C62_touch`, `C62_always`, `C62_empty`.
* **C63** Meta requests of any client (proved). C63_mg/later_ignored/bare/reply/miss/without_v for mg, C63_ms/ms_reply for ms (tokens given as a data type with its text; numbers in canonical decimal). Ill-formed tokens: C38, C36. Theorems: `C63_mg`, `C63_mg_later_ignored`, `C63_mg_bare`, `C63_ms`, `C63_mg_reply`, `C63_mg_miss`, `C63_mg_without_v`, `C63_ms_reply`, `C63_mg_concrete`, `C63_reply_concrete`, `C63_ms_concrete`.
* **C64** GetMulti against this module's server (proved). C64_binary/binary_several: any handler; C64_meta_all/meta_miss: any handler; C64_router_binary, C64_router_meta: the router over arbitrary memcached servers (values of transmissible size). Theorems: `C64_binary`, `C64_binary_several`, `C64_router_binary`, `C64_router_binary_cut`, `C64_meta_all`, `C64_meta_miss`, `C64_router_meta`, `C64_binary_concrete`, `C64_several_concrete`, `C64_meta_concrete`, `C64_router_concrete`.
* **C65** Text requests the server accepts (proved). C65_text: exact grammar (both directions); C65_first: first request of a connection; C65_unambiguous/split/stream: whole streams; C65_refused/own_refused/noreply/bare_lf: the surprising cases. The grammar is Spec/Grammar.lean. Theorems: `C65_text`, `C65_first`, `C65_unambiguous`, `C65_split`, `C65_stream`, `C65_refused`, `C65_own_refused`, `C65_noreply`, `C65_bare_lf`, `C65_concrete`.
* **C66** Binary requests the server accepts (proved). C66_binary: exact grammar (both directions); C66_first/unambiguous/split/stream; C66_refused/ignored/body_unread/length_ignored: the surprising cases. Theorems: `C66_binary`, `C66_first`, `C66_unambiguous`, `C66_split`, `C66_stream`, `C66_refused`, `C66_ignored`, `C66_body_unread`, `C66_length_ignored`, `C66_concrete`.
* **C67** One pool used by many goroutines (proved). C67_refines: simulation by the specification in Spec/PoolSched.lean (same schedule); C67_sequential ties the interleaved programs to the sequential model of C06-C09; C67_one_server, C67_lock, C67_counter: consequences; C67_getMulti_torn, C67_flush_split: concrete runs under the real hash functions showing the limits; C67_concrete: hypotheses met. One call on a connection is one step (C30). Theorems: `C67_sequential`, `C67_refines`, `C67_one_server`, `C67_lock`, `C67_counter`, `C67_concrete`, `C67_getMulti_torn`, `C67_flush_split`.
* **C68** Calls on a shared connection return (proved). C68_finite: well-founded measure on all steps; C68_stop: what a stopped state looks like; C68_always, C68_served, C68_memcached_text/_meta/_binary: when all calls return; C68_run_on: every state can be carried on to a stop; C68_silent: a server that does not answer; C68_concrete: hypotheses met. Fairness between goroutines competing for the mutex with endless new calls is not claimed. Theorems: `C68_finite`, `C68_stop`, `C68_always`, `C68_served`, `C68_run_on`, `C68_memcached_text`, `C68_memcached_meta`, `C68_silent`, `C68_concrete`, `C68_memcached_binary`.
* **C69** Reconnect among many goroutines (proved). C69_linear, C69_sequential: every epoch is linearizable up to its first failure; C69_wires: no request reaches another connection; C69_memcached_text/_meta/_binary: against memcached; C69_one_open: no connection is left behind without Close; C69_leak: a Close during Reconnect that leaves a connection open in all continuations; C69_concrete: a run with failure and recovery. Memory is taken to be sequentially consistent. Theorems: `C69_linear`, `C69_sequential`, `C69_wires`, `C69_memcached_text`, `C69_one_open`, `C69_leak`, `C69_concrete`, `C69_memcached_meta`, `C69_memcached_binary`.
* **C70** Replies Get and GetMulti accept (proved). C70_text_get, C70_text_getMulti, C70_meta_get, C70_meta_getMulti, C70_binary_get, C70_binary_getMulti: the accepted replies, in both directions; C70_text_get_panics, C70_meta_get_panics: the replies that panic; C70_text_get_junk, C70_text_negative, C70_meta_no_space, C70_meta_negative, C70_binary_other: cases a user would not expect. Theorems: `C70_binary_get`, `C70_binary_getMulti`, `C70_binary_other`, `C70_meta_get`, `C70_meta_get_panics`, `C70_meta_getMulti`, `C70_meta_no_space`, `C70_meta_negative`, `C70_text_get`, `C70_text_get_panics`, `C70_text_getMulti`, `C70_text_get_junk`, `C70_text_negative`.
* **C71** Options and the heartbeat of a client in use (proved). C71_options, C71_dial_fails, C71_bad_option: the constructors; C71_embeds: runs with a heartbeat are runs of the model of C69 (C71_linear spells one consequence out); C71_heartbeat: the heartbeat among goroutines follows the one of C34; C71_probe_once, C71_no_second_reconnect; C71_shut_for_good, C71_give_up; C71_close_undone: existence of a run and all its continuations; C71_options_concrete, C71_reconnects, C71_gives_up: hypotheses met. Theorems: `C71_options`, `C71_options_concrete`, `C71_dial_fails`, `C71_bad_option`, `C71_embeds`, `C71_linear`, `C71_heartbeat`, `C71_probe_once`, `C71_give_up`, `C71_no_second_reconnect`, `C71_close_undone`, `C71_reconnects`, `C71_gives_up`, `C71_shut_for_good`.
* **C72** Data races between the methods of a client (proved). C72_only_close, C72_no_race, C72_meta_binary, C72_meta_binary_no_reconnect: no other races in any reachable state; C72_close_reconnect, C72_text_close_operation, C72_text_two_closes, C72_heartbeat: reachable races; C72_writes, C72_reads_raw, C72_reads_closeCh, C72_reads_conn: the table of accesses agrees with the steps of the model. A race is two enabled conflicting accesses of different goroutines in an interleaved execution. Theorems: `C72_only_close`, `C72_no_race`, `C72_meta_binary`, `C72_meta_binary_no_reconnect`, `C72_close_reconnect`, `C72_text_close_operation`, `C72_text_two_closes`, `C72_heartbeat`, `C72_writes`, `C72_reads_raw`, `C72_reads_closeCh`, `C72_reads_conn`.
* **C73** Calls get on when goroutines Close and Reconnect too (proved). C73_finite, C73_run_on: no endless runs; C73_stop: the states in which runs stop; C73_always, C73_served, C73_memcached_text: when that is only with all calls returned; C73_close_frees; C73_stuck: closed, reconnected text client; C73_concrete, C73_stuck_concrete: hypotheses met. Dialling is taken to succeed or fail eventually (Reconnect dials with context.TODO(), so only the operating system bounds it). Theorems: `C73_finite`, `C73_run_on`, `C73_stop`, `C73_always`, `C73_served`, `C73_close_frees`, `C73_stuck`, `C73_memcached_text`, `C73_concrete`, `C73_stuck_concrete`.
* **C74** Results belong to the caller (proved). C74_reply: the readers on memory agree with those on values (for every splitting of the stream), and where the results lie; C74_call, C74_caller_writes: whole operations, and writes of the caller elsewhere; C74_kept, C74_apart: over any history (Spec.Using); C74_sends, C74_put_back: what is sent; C74_append; C74_layout, C74_append_binary, C74_flags_over_value: the shared array of binary items. Examples: Get, Set of the same item, Get over text; append(item.Flags, 'X') turning hello into Xello over binary. Theorems: `C74_reply`, `C74_call`, `C74_caller_writes`, `C74_kept`, `C74_apart`, `C74_append`, `C74_append_binary`, `C74_layout`, `C74_flags_over_value`, `C74_sends`, `C74_put_back`.
* **C75** Several clients of one memcached (proved). C75_history: every history of any clients equals the abstract one (Spec.runMany); C75_interop; C75_cas, C75_no_lost_update, C75_cas_refused: tokens; C75_multi: GetMulti without tokens; C75_count. Restrictions as in C52: arguments memcached accepts, flags below 2^31 (C18), no meta Touch, meta GetMulti of present keys (C25), no binary call after one that left bytes unread (C55), no binary counting after a store with a token by the same client (C28). Each call is one step of the shared server. Examples: three clients, one of each protocol. Theorems: `C75_history`, `C75_cas`, `C75_no_lost_update`, `C75_cas_refused`, `C75_interop`, `C75_multi`, `C75_count`.
* **C76** Write errors (proved). Put statements of every operation and reply on a bufio.Writer (Go/BufWrite) over a connection with arbitrary Write results. C76_prefix, C76_each, C76_success, C76_sticky, C76_last, C76_same, C76_one_write, C76_large: client; C76_server_same, C76_server: server. Sequential on one connection; reading is on a flat stream (C31). A panic while building a request leaves the bytes written so far in the buffer (C57; Spec.gave says which). Theorems: `C76_prefix`, `C76_each`, `C76_success`, `C76_sticky`, `C76_last`, `C76_same`, `C76_one_write`, `C76_large`, `C76_large_concrete`, `C76_concrete`, `C76_panic_concrete`, `C76_server_same`, `C76_server`, `C76_server_concrete`.
* **C77** Connections that hold only so many bytes (proved). Client/Flow: one operation byte by byte over a connection with bounded capacity in each direction and a server that writes the reply to a request before it reads on. C77_ends, C77_finite, C77_fits, C77_one, C77_all_fit, C77_too_much: any server with framed requests; C77_text, C77_meta, C77_binary and the *_multi* theorems: reference memcached; C77_server, C77_server_multi: this repository's server with any handler. No deadlines and no failing connections here (those are in C54, C73, C76). Examples: 140000 keys over meta, 5000 keys over binary and this server with 64 KiB buffers; a text Get over a one-byte connection. Theorems: `C77_ends`, `C77_finite`, `C77_fits`, `C77_one`, `C77_all_fit`, `C77_too_much`, `C77_server`, `C77_server_multi`, `C77_concrete_meta`, `C77_concrete_server`, `C77_concrete_get`, `C77_text`, `C77_meta`, `C77_binary`, `C77_meta_multi_fits`, `C77_meta_multi`, `C77_meta_multi_many`, `C77_binary_multi`, `C77_binary_multi_many`, `C77_binary_multi_fits`.
* **C78** Requests belong to the handler (proved). Server/Memory: the request readers of the server on memory, one array per make, ReadBytes copying out of the buffer. C78_request: the readers on memory agree with those on values for every splitting of the stream, and where Flags and Value lie; C78_kept, C78_apart, C78_stream: any server at work (Spec.Serving: connections accepted and given up, requests read on any of them in any order, anybody making arrays and writing anywhere but into the read buffers of open connections); C78_append, C78_forward: what handlers do with a request; C78_served: every stream of requests leads to such a state. Reading one request is one step. Example: two Sets, the handler overwrites the value of the first. Theorems: `C78_request`, `C78_kept`, `C78_apart`, `C78_stream`, `C78_append`, `C78_forward`, `C78_served`, `C78_concrete`.
* **C79** Goroutines sharing a connection that holds only so many bytes (proved). Client/Narrow: the goroutines of Client/Sched on the connection of Client/Flow, byte by byte. C79_refines, C79_finite, C79_run_on, C79_stop, C79_always, C79_served, C79_single: any server with framed requests; C79_text(_return), C79_meta, C79_binary: reference memcached; C79_too_much, C79_timeout, C79_for_ever, C79_dead, C79_meta_multi, C79_binary_multi: the deadlock and what becomes of the others. Binary operations as in C30 (replies read to the end). C79_too_much and the theorems built on it assume that nobody calls Close meanwhile; Reconnect is not in this model (C69, C73). Theorems: `C79_refines`, `C79_finite`, `C79_stop`, `C79_always`, `C79_served`, `C79_dead`, `C79_too_much`, `C79_timeout`, `C79_for_ever`, `C79_single`, `C79_text`, `C79_meta`, `C79_binary`, `C79_meta_multi`, `C79_binary_multi`, `C79_run_on`, `C79_text_return`, `C79_concrete`.
* **C80** Goroutines sharing a client that talks to a server of this module (proved). Client/Sched and Client/Narrow with the output of Server/Serve as the other side. C80_linear, C80_return: unlimited connection; C80_narrow, C80_narrow_results: bounded one; C80_multi: the binary GetMulti that hangs; C80_router, C80_router_return: a router in front of reference memcached servers (C47; the clock stands still). `Willing` (Spec/Served): the handler answers each operation in use, from every state of an invariant, in a way that has a meaning for the client (`Gives`, C16); operations this server does not understand (C12, C19, C64) are therefore excluded. The log shows of a Version only that it succeeded (its text: C16). One connection; several connections with one handler are C56. That the server closes the connection after an error is the step of Client/Sched in which the other side hangs up. Theorems: `C80_linear`, `C80_return`, `C80_narrow`, `C80_narrow_results`, `C80_multi`, `C80_concrete`, `C80_concrete_multi`, `C80_router`, `C80_router_return`, `C80_router_concrete`.
* **C81** Many shared clients and one server process (proved). Client/Joint: Client/Sched for every client and Server/Accept (one goroutine per connection, `atomically h`: handler calls one at a time) in one state; bytes a client has sent reach the server in pieces at any time and vice versa. C81_linear: one order of all handler calls and what each client's calls return; C81_under_way, C81_next, C81_real_time: where in that order the calls of a client lie, in terms of moments of the run and of the mutex; C81_up: the server never panics; C81_finite, C81_run_on, C81_return, C81_to_the_end: termination and what has happened then. `Courteous`/`Usable` (Spec/Joint): per request, what a usable answer is; operations this server does not understand (C12, C19, C64) are excluded by `Fit`. Connections hold any number of bytes (bounded ones: C79, C80). Reconnect is not in this model (C69, C73): a client has one connection. C81_return assumes that no goroutine of the client has panicked (C35: that takes Close by several goroutines or Close with Timeout on a text client); C81_to_the_end that the client is not closed. Theorems: `C81_finite`, `C81_run_on`, `C81_linear`, `C81_up`, `C81_return`, `C81_under_way`, `C81_next`, `C81_real_time`, `C81_to_the_end`, `C81_concrete`.
* **C82** Which result each reply gives (proved). Spec/Meaning is the table (literal words, status names and error texts). C82_text_word, C82_meta_word, C82_text_number, C82_meta_number, C82_flush, C82_version: replies that are a line of at most 4096 bytes; C82_binary_head, C82_binary_foreign, C82_binary_fails, C82_binary_version, C82_binary_number, C82_binary_magic, C82_binary_multi_fails: binary; C82_text_get_line, C82_text_get_scan, C82_text_get_tail, C82_meta_get_line: errors of Get. Successful retrievals: C70; success of binary Replace and Delete: C20; incomplete replies: C22. Errors inside the blocks of a text or meta GetMulti and inside the head line of a meta value have the texts of the functions that parse them, and are covered only as 'not accepted' (C70) and 'not a panic' (C51). The error values of strconv and fmt are one constructor each. Theorems: `C82_text_word`, `C82_meta_word`, `C82_text_number`, `C82_meta_number`, `C82_flush`, `C82_version`, `C82_binary_head`, `C82_binary_foreign`, `C82_binary_fails`, `C82_binary_version`, `C82_binary_number`, `C82_binary_magic`, `C82_text_get_line`, `C82_text_get_scan`, `C82_text_get_tail`, `C82_binary_multi_fails`, `C82_meta_get_line`.
* **C83** Many shared clients, one router and its memcached servers (proved). Client/Joint with Proxy/Sched as the handler: between two calls on memcached connections of one ServeRequest anything else may happen. Spec/JointRouter: `played` carries the calls out on one map, `Accounts` compares with what the goroutines saw. C83_linear: one moment; C83_real_time: two moments; C83_finite, C83_run_on, C83_return, C83_to_the_end: termination and what has happened then (deadlines as in C81; a call on a memcached server always gets its reply, C30/C52). Healthy: CAS numbers of the memcached servers stay below 2^63. One call on a memcached connection is one step (C30). The clients' calls are those the router is for (`Use`: Get of meta and binary clients, Set of all; C46-C50 for the rest). Theorems: `C83_real_time`, `C83_linear`, `C83_finite`, `C83_run_on`, `C83_return`, `C83_to_the_end`, `C83_concrete`, `C83_concrete_end`.
* **C84** Pool methods over shared connections, step by step (proved). Cluster/Wired: processes, connections (Client/Sched without Close and without deadlines that pass), memcached's end of them, pool methods as programs (Cluster/Sched). Spec/Wired: the same with every call carried out at once (`MomentRun`), replica pools with every method carried out at once (`IdealRun`). C84_refines: any pool methods over text or meta connections whose calls are one command each to which memcached gives a reply the client understands (`NextProper`, to be shown of the simple system only); C84_replica: replica pools; C84_pool: SinglePools over text connections, against one memcached (Spec/WiredPool, as Spec/PoolSched of C67), results alike up to tokens, server names and the order of items; C84_finite, C84_no_deadlock, C84_run_on (and C84_replica_*, C84_pool_*): termination. Not covered: GetMulti of meta connections (several commands; C25, C63), connections that go down (C32, C54, C60), Close (C35), heartbeats (C34, C71). Healthy: CAS numbers stay below 2^63. Theorems: `C84_pool`, `C84_pool_finite`, `C84_pool_no_deadlock`, `C84_pool_run_on`, `C84_pool_concrete`, `C84_refines`, `C84_replica`, `C84_replica_finite`, `C84_replica_no_deadlock`, `C84_replica_run_on`, `C84_finite`, `C84_no_deadlock`, `C84_run_on`, `C84_concrete`.
* **C85** Pool methods over connections that break (proved). Cluster/Wired (the same system as C84, now with every `hangUp` allowed). Spec/WiredBreak: `ShakyRun` (any pool methods; calls carried out at one moment, lost, failed, or carried out late), `FrailRun` (methods of SinglePool on one key), `GoesOn`. C85_refines: text or meta connections whose calls are one command each to which memcached gives a reply the client understands (`NextFine`, to be shown of the simple system only); C85_pool, C85_at_most_once, C85_error_broken, C85_error_exact (call by call; C85_error_concrete), C85_counter, C85_lock: SinglePools over text connections, one-key methods (`FrailUse`); C85_finite, C85_no_deadlock, C85_run_on, C85_pool_run_on: termination (`GoesOn` leaves out what memcached does with bytes on broken connections: it is not waited for). C85_counter_exact, C85_lock_won: exactness when nobody got a connection error (C85_exact_concrete, C85_lock_concrete: three increments and three Adds while another process's connection is broken). C85_concrete: a run in which one call fails after being carried out and another is carried out after it has returned with an error. Not covered: Reconnect (C86), deadlines (C54), Close (C35), Flush and GetMulti of a SinglePool over broken connections beyond C85_refines. C85_read_after: what a Get can get once a call that changes its key has returned (C85_read_concrete); C85_read_whole: without connection errors while no connection to its server breaks. C85_found: a key that nobody removes is found (C85_found_concrete). Theorems: `C85_refines`, `C85_error_exact`, `C85_found`, `C85_found_concrete`, `C85_pool`, `C85_at_most_once`, `C85_error_broken`, `C85_read_after`, `C85_read_whole`, `C85_read_concrete`, `C85_finite`, `C85_no_deadlock`, `C85_run_on`, `C85_pool_run_on`, `C85_counter`, `C85_lock`, `C85_concrete`, `C85_counter_exact`, `C85_lock_won`, `C85_exact_concrete`, `C85_lock_concrete`.
* **C86** Pool methods over connections that break and are replaced (proved). Cluster/Rewired (the system of C84/C85 over the clients of Client/Reconn: every goroutine may call Reconnect; every connection ever dialled has its own end at memcached). Spec/Rewired: `MendedRun` (any pool methods), `PatchedRun` (one-key methods of SinglePool). C86_refines: text or meta connections, under `NextFine` as C85; C86_pool, C86_at_most_once, C86_counter, C86_lock, C86_error_broken, C86_error_exact (call by call; C86_error_concrete): SinglePools over text connections, one-key methods (`PatchedUse`). C86_concrete: an increment fails, Reconnect, the next succeeds with 42, then the request of the first is carried out and the counter is 43. C86_counter_exact, C86_lock_won with C86_exact_concrete, C86_lock_concrete (a connection breaks and is replaced before). C86_finite, C86_no_deadlock, C86_run_on, C86_pool_run_on: termination of methods and Reconnect (`Spec.Rewired.GoesOn` leaves out what memcached does with bytes on connections that are broken or replaced: it is not waited for). Not covered: deadlines (C54), Close (C35). C86_read_after: what a Get can get once a call that changes its key has returned (C86_read_concrete). C86_found: a key that nobody removes is found (C86_found_concrete). Theorems: `C86_finite`, `C86_no_deadlock`, `C86_run_on`, `C86_pool_run_on`, `C86_pool`, `C86_at_most_once`, `C86_counter`, `C86_lock`, `C86_refines`, `C86_error_broken`, `C86_concrete`, `C86_error_exact`, `C86_found`, `C86_found_concrete`, `C86_read_after`, `C86_read_concrete`, `C86_counter_exact`, `C86_lock_won`, `C86_exact_concrete`, `C86_lock_concrete`.
* **C87** Replica pools over connections that break (proved). Cluster/Wired with every `hangUp` allowed and meta connections. Spec/WiredReplica: `TornRun` (methods carried out at one moment by the primary), `LeavesBehind`, `ByCall`, `Answered`. C87_pool: refinement; C87_commands; C87_error_broken; C87_run_on: termination (with C85_finite); C87_durable, C87_sole_writer: what the two servers hold (calls that change the key are Set, Add, Replace without expiration, Delete); C87_read_after: what is read after an acknowledged change (`ReadAfter`, `OneOfThese`), C87_read_concrete: a Set by one process, then a Get by another, while a third has lost its connections; C87_results: results. C87_found: a key that nobody removes is found (`Retains`, `Endures`; C87_found_concrete: a Get, an Increment, a Replace of three processes). C87_counter, C87_lock: counters and locks (C87_counter_concrete: three processes count from 41 to 44, C87_lock_concrete: three add a key, while a fourth has lost a connection; `Likened`: methods of replica pools as calls in no order). C87_concrete: a Set that fails with the primary changed, one with neither changed, which is carried out after it has returned, and two processes going on to the end while a connection to the secondary is broken. Methods: Get, Set, Add, Replace, Delete, Increment, Decrement without cas tokens (GetMulti, Touch and Flush of replica pools: C42-C45, C58, C61). Healthy: CAS numbers stay below 2^63. Not covered: Reconnect (C88), deadlines (C54). Theorems: `C87_read_after`, `C87_results`, `C87_pool`, `C87_commands`, `C87_error_broken`, `C87_run_on`, `C87_durable`, `C87_sole_writer`, `C87_found`, `C87_counter`, `C87_lock`, `C87_counter_concrete`, `C87_found_concrete`, `C87_lock_concrete`, `C87_concrete`, `C87_read_concrete`.
* **C88** Replica pools over connections that break and are replaced (proved). Cluster/Rewired with meta connections. Spec/WiredReplica: `TornRun true` (methods carried out at one moment by the primary, connections broken and mended). RetornUse: the situation. C88_pool: refinement; C88_commands; C88_error_broken: errors between two moments; C88_run_on: termination (with C86_finite); C88_found, C88_counter, C88_lock, C88_durable, C88_sole_writer, C88_read_after, C88_results as for C87. C88_concrete: a Set fails and is not carried out, Reconnect, a second Set returns without an error and both copies have it, then the request of the first is carried out: the primary has the first value, the secondary the second, and another process reads the first. Methods: Get, Set, Add, Replace, Delete, Increment, Decrement without cas tokens. Healthy: CAS numbers stay below 2^63. Not covered: deadlines (C54), Close (C35). Theorems: `C88_pool`, `C88_commands`, `C88_error_broken`, `C88_run_on`, `C88_durable`, `C88_sole_writer`, `C88_read_after`, `C88_results`, `C88_concrete`, `C88_found`, `C88_counter`, `C88_lock`.
