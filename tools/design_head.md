# Formal model of f110/go-memcached in Lean 4 — design

## 1. Shape of the model

Bytes are `UInt8`, a Go `string`/`[]byte` is `List UInt8` (`Bytes`). Go `int`,
`int64` are `Int`, unsigned numbers `Nat`; every conversion that truncates
(`uint16(len(key))`, `uint32(exp)`, `int64(u)`) is an explicit `%`/wrap in the
model.  Errors are values (`Err`), Go panics are an explicit outcome:

    inductive Res α | ok (a : α) | err (e : Err) | panic

A connection's inbound stream is the list of bytes the peer sends before the
connection ends; a reader is `Rd α := Bytes → Res α × Bytes` (result, unread
rest).  Running off the end is the error `Err.io` (EOF, reset or deadline).  All
client operations first write and flush the whole request and only then read, so
a client operation is a `Call α` = request bytes + reader.  Three refinements
justify this view: `Go/Bufio.lean` + `Client/Segmented.lean` replace the stream by
a `bufio.Reader` on a connection delivering arbitrary pieces (C31: same results);
`Client/Life.lean` adds open/close/reconnect (C32, C33); `Client/Sched.lean`
splits every operation into its lock, field accesses, partial writes and partial
arrivals, interleaved among any number of goroutines (C30, C35, C54: as long as
nothing failed the operations behave as if called one after the other).

Layers (all under `lean/Verif/`; every definition cites file and lines):

| module | models |
|---|---|
| `Go/Basic`, `Go/Fscanf` | the parts of Go's library the code leans on: `strings.Split/Join/Trim…`, `strconv.ParseInt/ParseUint/Atoi/FormatInt`, `encoding/binary`, `bufio.Reader.ReadSlice/ReadBytes` on a stream, `io.ReadFull`, `fmt.Fscanf` for the two formats used (including UTF-8 decoding of the key), `make`/slicing/indexing panics |
| `Go/Bufio` | `bufio.Reader` with its 4096-byte buffer and `Read` calls of arbitrary sizes |
| `Go/BufMem` | the same reader with its buffer in memory: `ReadSlice` gives a part of the buffer |
| `Go/BufWrite`, `Go/Puts` | `bufio.Writer` with its 4096-byte buffer over a connection whose writes may fail after any number of bytes; programs of `Write`, `WriteString`, `Flush` with checked or ignored errors |
| `Go/Slice` | `[]byte` with backing array, offset, length, capacity; `append`, `copy` |
| `Go/Act` | computations on a world that keep their effects when they fail |
| `Client/Text`, `Meta`, `Binary` | client/server.go, operation by operation |
| `Client/Headers` | the `sync.Pool` of request headers |
| `Client/Memory` | the three storing operations on memory |
| `Client/Segmented` | the same operations on a `bufio.Reader` |
| `Client/Result`, `MemSession` | the reading parts of all operations with slices of the buffer, and items that hold slices; whole operations on memory |
| `Client/Puts`, `Server/Puts` | the writing half of every operation and of every reply, statement by statement |
| `Client/Buffer` | the write buffer of a binary connection across a recovered panic |
| `Client/Life`, `Heartbeat`, `Sched`, `Reconn`, `Heart` | Close/Reconnect, the heartbeat goroutine, concurrent callers, concurrent callers that also reconnect, the same with options and a heartbeat |
| `Client/Joint` | any number of clients (`Client/Sched`), each shared by goroutines, connected to one server process (`Server/Accept`) |
| `Cluster/Wired` | goroutines of any number of processes that run pool methods over shared connections to memcached servers, all steps of the connections included |
| `Cluster/Rewired` | the same with clients that have Reconnect, and all the connections they have dialled, each with its own end at memcached |
| `Client/Narrow` | several goroutines using one client (`Client/Sched`) on such a connection (`Client/Flow`) |
| `Client/Flow` | one operation on a connection that holds only so many bytes in each direction |
| `Client/Race` | which shared variables a goroutine touches next |
| `Pool/Ring`, `Single`, `Hash`, `RingData` | client/ring.go, client/client.go; SHA-1 and CRC-32 for the concrete rings |
| `Server/Read`, `Write`, `Serve` | server/server.go: request readers, reply writers, serve loop |
| `Server/Memory` | the request readers on memory: which arrays a request is made of |
| `Server/Accept` | the accept loop and any number of connections at once |
| `Cluster/Replica`, `Sched` | cluster/cluster.go, sequentially and with interleaved callers |
| `Cluster/Links` | the router's connections to memcached, which may break at any moment and are never dialled again |
| `Proxy/Replica`, `Sched` | proxy/replica_pool.go (the router's handler), sequentially and used by all client connections at once |
| `Proxy/Main` | cmd/router/main.go: connecting to the configured servers, listening |
| `Mc/*`, `Spec/Kv` | *environment, not code of the repository*: a reference memcached (key → value, flags, expiry, cas; byte protocols per memcached's protocol.txt) |
| `Pool/Sched` | client/client.go with interleaved callers |
| `Pool/OverMc`, `Cluster/OverMc`, `Mc/Session`, `Mc/Many` | client, several clients, pool and replica pool connected to reference memcached servers |
| `Spec/*` | the small specifications the theorems are stated against, independent of the model's helpers |
| `Lemmas/*` | auxiliary lemmas |
| `Props/*` | the property theorems `Cnn_…`, each with concrete instances of its hypotheses |

Hash functions (SHA-1 prefix, CRC32) are parameters of the ring: the theorems
hold for every hash function.  `sort.Slice` is any sorting permutation, map
iteration is any order, `sync.Pool.Get` may return any header ever put or a new
one.  `Handler` (server), `Server` (pool) and the peer of a connection are
arbitrary wherever the property allows it.

## 2. Method per property

| id | modelled | proof |
|---|---|---|
| C01 C02 | `Ring.Pick` loop with its `lower`/`upper` indices | loop invariant by induction on the interval; exact-hit case characterised, ideal refuted by a concrete ring |
| C03 C04 C05 | `NewRing` as relation (points, any sorted permutation) | declarative description of Pick ⇒ uniqueness ⇒ invariance under permutation/extension |
| C06 C07 C09 | `GetMulti`, `Each`, map iteration as arbitrary permutation | induction over key list / server order |
| C08 | pool over state machines | refinement by induction over operations |
| C10–C12, C17, C18 | client request writers, server readers | byte-level round trip: `read (wire ++ rest) = (ok req, rest)` |
| C13–C15 | server writers, client readers | same, other direction |
| C16, C36, C37 | `serve` loop | induction over request list, well-founded recursion on the stream |
| C19–C21, C23, C24, C27, C51 | client readers on arbitrary streams | case analysis of the readers; refutations by concrete replies |
| C22 | readers on every strict prefix | monotonicity: a reader that succeeds on a prefix succeeds identically on the whole |
| C25, C26 | GetMulti loops | induction over the reply list |
| C28 | recycled request header as an argument, histories with a header pool | equality for all previous header contents; refutation for incr |
| C29 | slices with backing array, offset, len, cap | memory before/after |
| C30, C35, C54 | goroutines × mutex × connection, small steps | invariants over all executions, by induction on reachability; witnesses for the failing schedules |
| C31 | chunked `bufio.Reader` | refinement to the flat reader, operation by operation |
| C32, C33, C34 | life-cycle and heartbeat state machines | induction over event lists / executions |
| C38 | server readers | exact characterisation of panic |
| C39, C40 | server writers | computation for all requests/responses |
| C41 | cluster operations over arbitrary servers with a call trace | case analysis |
| C42–C45 | cluster over reference memcached | invariant by induction; refutations by concrete states/schedules |
| C46–C50, C53 | proxy + server + cluster + memcached | composition of the above |
| C52 | clients (text, meta, binary with recycled headers) over reference memcached bytes | refinement per call, induction over history |
| C56 | server process with many connections | invariants over all interleavings |
| C57 | write buffer after a recovered panic | computation of what memcached makes of the leftover bytes |
| C58 | cluster with interleaved callers over reference memcached | simulation by atomic calls on the primaries, invariants over all schedules; refutation by a schedule |
| C59 | router process: server with many connections, interleaved calls on memcached | simulation (trace inclusion) by an atomic shelf, then per-client replay of the wire formats |
| C60 | router over connections that may break (`Cluster/Links`) | step-by-step simulation by a site with lost servers, induction over the history |
| C61 | `main` of the router as a relation between configuration, dial results and outcome | induction over the server lists; placement by naming the ring's nodes |
| C62, C67 | pool operations over arbitrary servers; `Pool/Sched` | case analysis; linearization by induction over schedules |
| C63 | server readers of mg/ms options | induction over the options, exact characterisation |
| C64 | client GetMulti, server, handler composed | induction over the keys |
| C65, C66, C70 | client writers and server readers, client readers as grammars | equivalence `reader accepts ↔ grammar`, both directions |
| C68, C73 | `Client/Sched`, `Client/Reconn` with a termination measure | measure decreases along every step; analysis of the states without successor |
| C69, C71 | `Client/Reconn`, `Client/Heart` (any number of connections, timer) | invariants over all executions, simulation by sequential calls per connection |
| C72 | accesses to shared variables (`Client/Race`) | invariant: who may be where while the mutex is held |
| C74 | readers on memory (`Go/BufMem`, `Client/Result`) | simulation of the readers on values, ownership invariant over histories |
| C75 | any number of clients of the three protocols over one reference memcached (`Mc/Many`) | refinement per call (C52), induction over the history; backward invariant for tokens |
| C76 | `bufio.Writer` over failing writes (`Go/BufWrite`, `Client/Puts`, `Server/Puts`) | invariant of the writer (sent ++ buffer = bytes handed over), induction over operations and requests |
| C77 | one operation over a connection of bounded capacity (`Client/Flow`), byte by byte | invariant over all interleavings (bytes in transit = replies to what was taken), termination measure, analysis of states without successor |
| C78 | the server's request readers on memory (`Server/Memory`), any number of connections | simulation of the readers on values, ownership invariant over all histories |
| C79 | goroutines on a connection of bounded capacity (`Client/Narrow`) | refinement of `Client/Sched` (what has arrived is a prefix of the server's output), lexicographic termination measure, analysis of states at rest, invariants along a run that is too much |
| C80 | the server of `Server/Serve` as the other side of `Client/Sched` and `Client/Narrow` (`Spec/Served`) | what the server says is a prefix-monotone function of its input (from framing); the conversation of C16 gives the results one by one; C30, C68 and C79 instantiated |
| C81 | all clients and the server process in one transition system (`Client/Joint`, `Spec/Joint`) | each client's part of a run is a run of `Client/Sched` against the server of C80 with a handler that replays the recorded answers; the server's part is a run of C56; then C30/C80 per client and C56 for the order; progress by a lexicographic measure over all clients |
| C82 | the readers of `Client/Text`, `Client/Meta`, `Client/Binary` against a table of words, statuses and error texts (`Spec/Meaning`) | case analysis per operation; number lines by the grammar of numbers (C65) |
| C83 | the transition system of C81 with the router's process (`Proxy/Sched`) as the handler (`Spec/JointRouter`) | a run of the whole is a run with a shelf that answers at once in place of the router (the simulation of C59, step by step, with the passing of time brought forward), to which C81 applies; what each client was told is then read off the shelf's calls; termination by the measure of C81 with the number of memcached calls a request still makes |
| C84 | all processes, connections and servers in one transition system (`Cluster/Wired`), and the one in which a call on a connection is one step (`Spec/Wired`) | forward simulation: the moment of a call is when memcached carries its command out; a connection is quiet, asking or told (its reply, or the rest of it, is on its way); for replica pools composed with the simulation of C59, for SinglePools with that of C67 (`Spec/WiredPool`); termination: whatever happens brings exactly one goroutine on, in a well-founded order, and finitely many goroutines are at work |
| C85 | the system of C84 with connections that break at any moment (`Cluster/Wired`), against one in which a call is carried out at one moment, lost, failed or carried out late (`Spec/WiredBreak`) | forward simulation: besides quiet, asking and told a connection may be dead (a write has failed; what was sent and not carried out is the beginning of the requests that have failed); methods of SinglePool by a second simulation (`FrailRun`), counter and lock by invariants on its runs, exact ones by counting calls against results; termination by the measure of C84, where a broken connection lets its caller fail |
| C86 | the system of C85 with clients that have Reconnect (`Cluster/Rewired`), against one in which broken connections are replaced (`Spec/Rewired`) | the connection in use, and only it, is seen as a connection of C85 (`view`): every step of a client with Reconnect is a step or no step of it, or replaces it by a new one while nobody is using it; what has been sent on old connections and not carried out is the beginning of the requests that failed on them; methods of SinglePool by lifting the simulation of C85; at most once, counter and lock are invariants of the looser runs `LooseRun`; errors by an invariant relative to any earlier moment; termination by the measure of C85 on the connections in use, together with how far each Reconnect is from its end |
| C87 | the system of C85 with replica pools over meta connections, against one in which a method is carried out at one moment by the primary (`Spec/WiredReplica`) | on top of `C85_refines`: a second simulation (`TornRel`) from calls to methods: where a method is in its program (`Stage` of C58), which commands are left over, and that left-over commands to a secondary do not touch a primary; for the two copies an invariant over all runs (`Durable`): which of both holds a written value, for methods in progress by stage, and for requests still adrift |
| C88 | the system of C86 with replica pools over meta connections | the connections in use are seen as connections of a system in which broken ones are replaced (`C86_refines`); that is simulated as in C87 (`AgainRun`, `again_run`: a call left on a replaced connection stays adrift); the invariants of C87 are proved for such runs at once |
| C55 | binary client over reference memcached, unread bytes carried along | exact left-over per call, invariant on the misalignment |

Some properties a user would like to have are false of this code.  For those the
theorem states exactly what happens instead (for all inputs) and a `…_concrete`
or counterexample theorem exhibits it: C02, C04 (shared hashes), C17, C18 (flags
of 2^31 and more), C20/C21 (text Delete/Touch succeed on any other line), C23 (16-bit
wrap), C24 (unread bodies), C25, C28, C29, C33, C34, C35, C38, C39, C43, C44, C45,
C48–C51, C53–C55, parts of C56–C58, C60, C61, C71, C73–C75, C77 (a large `GetMulti`).

Nothing is left out as inexpressible; what the model cannot exhibit is listed in
section 3 and each such restriction is repeated at the definition concerned.

## 3. Trusted base

* Lean's kernel; the axioms of every `Cnn_…` theorem are among `propext`,
  `Classical.choice`, `Quot.sound` (`#print axioms`); no axiom is added, no
  proof is left open, nothing rests on compiled code.
* The reading of `/repo` into the model (each definition cites file and lines).
* The reading of Go's library into `Go/*` (`strconv`, `fmt.Fscanf`, `bufio`,
  `encoding/binary`, `append`/`copy`), and of the language: panics, integer
  conversions, map iteration order, `sort.Slice`, `sync.Pool`, `sync.Mutex`,
  `net.Conn` (bytes arrive in order; after `Close` reads and writes fail),
  `time.Timer`.
* For C08, C18 (memcached halves), C25, C27, C30_memcached, C42–C54 as far as they
  speak about memcached: the reference memcached of `Mc/*` and `Spec/Kv`.
* `Pool/RingData` lists point hashes of a few servers; they are *proved* equal to
  SHA-1 as defined in `Pool/Hash` (kernel evaluation), which is itself a reading
  of FIPS 180; only the concrete-ring theorems (C01_pools…, C02_wrong_server,
  C03_exact_hit_moves, …) use them.

Simplifications (repeated at the definitions):

* An operation on an open connection is request bytes + reader.  The write side of
  `bufio` is not chunked in `Call`; in `Sched` it is, and `Client/Puts` has it with all write
  errors (C76: without errors nothing differs); `Client/Buffer` (C57) has the bytes a recovered
  panic leaves in the buffer.
* `ReadSlice`'s result is a value in `Client/Text`, `Meta`, `Binary`; in `Client/Result` it is a
  slice of the buffer, and C74 proves that both give the same. In `Client/Result` the flags of
  a meta item are allocated after the header line has been scanned instead of in the scan, and
  one response header stands for all in the `sync.Pool`.
* `Server/Memory`: reading a request is one step among those of other connections and handlers (the
  connections share no memory, so finer steps give the same), strings are values, the arrays
  `ReadBytes` puts full buffers aside in are left out.
* `Life`: the fields `raw` and `conn` always refer to the same connection;
  operations are atomic there.
* `Sched`: sequentially consistent memory (the races between `Close` and
  operations are, strictly, undefined); `Timeout` constant and non-negative;
  a goroutine that panics stops the program. Reconnect is in `Client/Reconn`, which has
  as many connections as are dialled (C69) and is otherwise the same; `Client/Heart` adds the
  heartbeat goroutine and its timer to it (C71).
* `Pool/Sched`, `Cluster/Sched`, `Proxy/Sched`: one call on a connection is one step (justified by C30).
* `sync.Pool` never loses a header in the model (more choices than in reality).
* Server: in `Server/Serve` and `Server/Accept` writes do not fail; write errors are in
  `Server/Puts` (C76). `Server/Serve` is one
  connection (handler state threaded through); `Server/Accept` is the process with the accept
  loop, one goroutine per connection and a handler with overlapping calls. There a request is
  taken from the stream in one step once all its bytes have arrived.
* Time is whole seconds and passes between calls, never during one.
* `Cluster/Wired` and `Cluster/Rewired`: connections stay up (C84) or break at any moment (C85) and are replaced (C86), deadlines do not pass and nobody calls Close (C30, C35, C54 have what happens then); no
  heartbeats (C34, C71); what is sent and not yet received is unbounded (C79 for finite buffers); what memcached does with a
  command is one step.
* `Client/Joint`: what a client has sent and the server not yet received is unbounded; the server sees the end of the stream only
  after the client has closed; the handler's calls are atomic (`atomically`); no Reconnect, no heartbeat.
* `Client/Narrow`: single bytes move at a time; the client's side learns that the other one has hung up only
  after all that is to arrive has arrived; the server reads on only after it has written its reply.

Not modelled: memory exhaustion below 2^48 bytes, weak memory (by C72 programs that do not call
Close have no data races on a client, so Go guarantees them interleaved executions), TCP itself,
`net.Listen` beyond succeeding or failing,
`testutil`, log output, the parsing of the YAML configuration.

## 4. Tests of the theorems

`seeded/gen.py` lists edits a realistic bug (or fix) would make; `seeded/mutate.py`
applies each to a scratch copy, rebuilds, and finds which `Cnn_…` theorems are lost.
`seeded/LOG.jsonl` has the outcome of each and what was tightened.

## 5. Theorems per property

