{
 "C01": [
  "proved",
  "For every sorted ring; existence, uniqueness and equality with Pick. C01_pools_without_clash shows concrete real-size pools meet the hypotheses."
 ],
 "C02": [
  "proved",
  "Both halves: termination with a configured server at or after the hit, and a concrete ring where the wrong server is chosen."
 ],
 "C03": [
  "proved",
  "Growth theorem for keys not exactly on a point and rings without shared point hashes; C03_exact_hit_moves shows the first condition is needed."
 ],
 "C04": [
  "proved",
  "Order independence without shared point hashes; C04_clash shows two servers sharing a hash break it."
 ],
 "C05": [
  "proved",
  "Size, share, membership, panic on the empty ring, Find."
 ],
 "C06": [
  "proved",
  "All key lists, rings and map orders (map iteration order is an argument of the model)."
 ],
 "C07": [
  "proved",
  "All answers and map orders; error case and hit case."
 ],
 "C08": [
  "proved",
  "Bisimulation with one map for all operations of Op; results compared up to the opaque cas token, the server name and the order of GetMulti items. Only programs with GetMulti or Flush need distinct server names."
 ],
 "C09": [
  "proved",
  "Flush/Version/Close on SinglePool and Ring.Close, ok and error cases."
 ],
 "C10": [
  "proved",
  "One theorem per operation plus the key-length boundary (65536 bytes is misread)."
 ],
 "C11": [
  "proved",
  "One theorem per operation."
 ],
 "C12": [
  "proved",
  "One theorem per operation, plus the two meta requests the server rejects."
 ],
 "C13": [
  "proved",
  ""
 ],
 "C14": [
  "proved",
  ""
 ],
 "C15": [
  "proved",
  ""
 ],
 "C16": [
  "proved",
  "All sequences, all handlers, by induction on the session. C16_operations/C16_every state it over sequences of client operations (what the caller asked for and what the handler was willing to answer), not over what the client's readers accept."
 ],
 "C19": [
  "proved",
  "Iff characterisations per protocol."
 ],
 "C20": [
  "proved",
  "Iff characterisations per operation and protocol, including the three refuted cases."
 ],
 "C21": [
  "proved",
  "Iff characterisations per operation and protocol."
 ],
 "C22": [
  "proved",
  "All operations of the three protocols, every proper prefix of what the operation reads."
 ],
 "C23": [
  "proved",
  "Text Get/GetMulti, meta Get, binary Get; the two cases in which it is false (VA line without tokens, 16-bit length wrap) are theorems as well."
 ],
 "C25": [
  "proved",
  "Both the all-present case and the refutation with a missing key."
 ],
 "C36": [
  "proved",
  ""
 ],
 "C37": [
  "proved",
  ""
 ],
 "C40": [
  "proved",
  ""
 ],
 "C41": [
  "proved",
  "All operations, arbitrary server behaviours."
 ],
 "C52": [
  "proved",
  "Every history over a text connection; also meta histories (Touch excluded: it sends `md`; GetMulti of present keys only). C52_binary_call/_history: the binary client with headers recycled in any order; every exception is explicit (leftOver, C55; UsesToken, C28)."
 ],
 "C26": [
  "proved",
  "Text: any list of VALUE blocks and END; binary: any list of hit headers with their parts and the no-op reply."
 ],
 "C24": [
  "proved",
  "All single-line replies, all non-value lines of Get, binary operations by operation; the operations that leave the body unread, and the failure of the next call, are theorems."
 ],
 "C27": [
  "proved",
  "Text and meta against the memcached model (any counter), binary for every reply."
 ],
 "C51": [
  "proved",
  "Equivalences for every operation of the three protocols (meta GetMulti: necessary condition and the first-reply case), and for the arguments."
 ],
 "C17": [
  "proved",
  "Text and meta: one command per request for plain keys; concrete injections through CRLF and through a space in the key."
 ],
 "C18": [
  "proved",
  "All flag values, per protocol and peer; failing halves proved as failing for every value."
 ],
 "C38": [
  "proved",
  "Exact characterisation of the panicking requests over all byte streams and protocol states (readers), writer panics for empty response lists, and the whole serve loop."
 ],
 "C39": [
  "proved",
  "Silent for all but Get; Get writes an empty hit in each protocol; the client side shown to take it for a hit."
 ],
 "C28": [
  "proved",
  "Histories of calls with a nondeterministic header pool; C28_counting says exactly which stale Cas Increment/Decrement can carry, C28_stale exhibits it. C28_memcached: memcached then refuses the counting."
 ],
 "C29": [
  "proved",
  "Memory model with arrays, offset, length, capacity; exact effect of text/meta Set, no effect of the others; the calls also refine the flat model used elsewhere."
 ],
 "C42": [
  "proved",
  "ReplicaPool over reference memcached servers (Mc), meta protocol, arbitrary hashes; C42_call is the exact effect of each call, C42_history the agreement after any history."
 ],
 "C43": [
  "proved",
  "Exact characterisation (iff) of when the copies agree after a successful Increment/Decrement; counterexamples to the stronger reading are theorems (never-expiring items, results of 2^63 and more)."
 ],
 "C44": [
  "proved",
  "Exact outcome of Set with the primary's token, for all states of both replicas; C44_reachable/C44_concrete: the failing case is reached by ordinary use."
 ],
 "C45": [
  "proved",
  "Any number of goroutines, any schedule of the individual connection calls (atomic: mutex of the connection, C30, and atomic memcached commands) and of passing time; C45_sequential ties the call sequences to the pool's methods."
 ],
 "C46": [
  "proved",
  "For every request (any bytes the server reads) and any backends; the client operations concerned are enumerated in C46_operations."
 ],
 "C47": [
  "proved",
  "serve loop + request readers + proxy + pool + meta client + reference memcached + reply writers + client readers composed at byte level; C47_history: any history, any mix of clients, any delays."
 ],
 "C48": [
  "proved",
  "The property as a user would want it is false; what happens instead is proved for all keys, per protocol."
 ],
 "C49": [
  "proved",
  "False as wanted; independence of the key is proved for all keys, all backends."
 ],
 "C50": [
  "proved",
  "False as wanted; proved that Get never returns flags and that a meta Set stores none, and that text and binary Sets do store theirs."
 ],
 "C53": [
  "proved",
  "False as wanted; proved for all items and states that no reply is sent."
 ],
 "C31": [
  "proved",
  "bufio.Reader (ReadSlice, ReadBytes, Read, Peek) and io.ReadFull modelled over a connection that delivers arbitrary pieces; every client operation, every sequence of operations, the serve loop and whole memcached histories."
 ],
 "C30": [
  "proved",
  "Shared-connection model with every lock, field access, partial write and arrival a step; any server, any number of goroutines, Close allowed; C30_own_reply for exact replies, C30_memcached_text/meta/binary against the reference memcached; binary operations whose replies are read to the end (the others: C55); C30_binary_concrete."
 ],
 "C32": [
  "proved",
  "All histories of operations, Close and Reconnect of the lifecycle model."
 ],
 "C33": [
  "proved",
  "Both the working half and the four defects (failed dial final, Close of meta/binary final, text client not closable, stuck)."
 ],
 "C34": [
  "proved",
  "All schedules of timer, close and probe outcomes; at most one probe, leak of the goroutine."
 ],
 "C35": [
  "proved",
  "C35_clean/unblocked/no_panic for all schedules; the two panicking schedules for every call."
 ],
 "C54": [
  "proved",
  "False as wanted; C54_late_reply for any server and pair of calls, C54_wrong_items: the shift by one persists for all later Gets; C54_shifted: any number of calls of any kind; C54_meta_mislabelled, C54_binary_mislabelled: values under the wrong key; C54_mislabelled_concrete."
 ],
 "C55": [
  "proved",
  "False as wanted; C55_next_call for any next operation, C55_for_good: no later change is ever acknowledged."
 ],
 "C56": [
  "proved",
  "The good part by invariants over all interleavings (C56_session/prefix/caught_up/linear/real_time/no_blocking/answerable/clients); the shared-fate part is C56_crash/dead, with C56_down its converse. C56_operations states C56_clients over client operations of any protocol mix."
 ],
 "C57": [
  "proved",
  "False as wanted for binary connections: C57_binary/mistaken/waits for any next call, C57_get_stores for a Get; C57_meta is the good case, C57_only the list of calls concerned."
 ],
 "C58": [
  "proved",
  "For the callers: C58_linear (with the one exception stated) and C58_returns; secondaries: C58_secondary and C58_agree; the failing part: C58_diverge, C58_concrete. GetMulti is a sequence of calls on single servers and is not among the operations (C41 covers it sequentially)."
 ],
 "C59": [
  "proved",
  "For well-formed requests without token over healthy memcached servers (the failing rest: C46-C53). C59_atomic: trace inclusion in an atomic shelf; C59_linear; C59_clients: end to end in terms of client calls; C59_no_waiting for all requests and servers; C59_sequential ties the interleaved handler to the one of C46-C53."
 ],
 "C60": [
  "proved",
  "False as wanted (never reconnects). C60_history: exact answers when connections break between calls; C60_any_moment: what may be seen when they break at any moment; C60_never_again, C60_half_written, C60_others_unaffected are consequences. Calls one after the other; calls of C59 kind (good arguments, healthy servers as long as connected)."
 ],
 "C61": [
  "proved",
  "C61_serves/exits/one_dead/no_config/cases/iff: the start; C61_placement: names decide (without shared points, C04); C61_two_rings: the hypotheses of C42-C60 hold of every router started with servers in both roles; C61_no_secondary, C61_no_primary: the failing configurations. YAML parsing is not modelled."
 ],
 "C62": [
  "proved",
  "One theorem per method, over arbitrary servers with a log of calls; C62_always: a server exists for every key; C62_empty: the panic."
 ],
 "C63": [
  "proved",
  "C63_mg/later_ignored/bare/reply/miss/without_v for mg, C63_ms/ms_reply for ms (tokens given as a data type with its text; numbers in canonical decimal). Ill-formed tokens: C38, C36."
 ],
 "C64": [
  "proved",
  "C64_binary/binary_several: any handler; C64_meta_all/meta_miss: any handler; C64_router_binary, C64_router_meta: the router over arbitrary memcached servers (values of transmissible size)."
 ],
 "C65": [
  "proved",
  "C65_text: exact grammar (both directions); C65_first: first request of a connection; C65_unambiguous/split/stream: whole streams; C65_refused/own_refused/noreply/bare_lf: the surprising cases. The grammar is Spec/Grammar.lean."
 ],
 "C66": [
  "proved",
  "C66_binary: exact grammar (both directions); C66_first/unambiguous/split/stream; C66_refused/ignored/body_unread/length_ignored: the surprising cases."
 ],
 "C67": [
  "proved",
  "C67_refines: simulation by the specification in Spec/PoolSched.lean (same schedule); C67_sequential ties the interleaved programs to the sequential model of C06-C09; C67_one_server, C67_lock, C67_counter: consequences; C67_getMulti_torn, C67_flush_split: concrete runs under the real hash functions showing the limits; C67_concrete: hypotheses met. One call on a connection is one step (C30)."
 ],
 "C68": [
  "proved",
  "C68_finite: well-founded measure on all steps; C68_stop: what a stopped state looks like; C68_always, C68_served, C68_memcached_text/_meta/_binary: when all calls return; C68_run_on: every state can be carried on to a stop; C68_silent: a server that does not answer; C68_concrete: hypotheses met. Fairness between goroutines competing for the mutex with endless new calls is not claimed."
 ],
 "C69": [
  "proved",
  "C69_linear, C69_sequential: every epoch is linearizable up to its first failure; C69_wires: no request reaches another connection; C69_memcached_text/_meta/_binary: against memcached; C69_one_open: no connection is left behind without Close; C69_leak: a Close during Reconnect that leaves a connection open in all continuations; C69_concrete: a run with failure and recovery. Memory is taken to be sequentially consistent."
 ],
 "C70": [
  "proved",
  "C70_text_get, C70_text_getMulti, C70_meta_get, C70_meta_getMulti, C70_binary_get, C70_binary_getMulti: the accepted replies, in both directions; C70_text_get_panics, C70_meta_get_panics: the replies that panic; C70_text_get_junk, C70_text_negative, C70_meta_no_space, C70_meta_negative, C70_binary_other: cases a user would not expect."
 ],
 "C71": [
  "proved",
  "C71_options, C71_dial_fails, C71_bad_option: the constructors; C71_embeds: runs with a heartbeat are runs of the model of C69 (C71_linear spells one consequence out); C71_heartbeat: the heartbeat among goroutines follows the one of C34; C71_probe_once, C71_no_second_reconnect; C71_shut_for_good, C71_give_up; C71_close_undone: existence of a run and all its continuations; C71_options_concrete, C71_reconnects, C71_gives_up: hypotheses met."
 ],
 "C72": [
  "proved",
  "C72_only_close, C72_no_race, C72_meta_binary, C72_meta_binary_no_reconnect: no other races in any reachable state; C72_close_reconnect, C72_text_close_operation, C72_text_two_closes, C72_heartbeat: reachable races; C72_writes, C72_reads_raw, C72_reads_closeCh, C72_reads_conn: the table of accesses agrees with the steps of the model. A race is two enabled conflicting accesses of different goroutines in an interleaved execution."
 ],
 "C73": [
  "proved",
  "C73_finite, C73_run_on: no endless runs; C73_stop: the states in which runs stop; C73_always, C73_served, C73_memcached_text: when that is only with all calls returned; C73_close_frees; C73_stuck: closed, reconnected text client; C73_concrete, C73_stuck_concrete: hypotheses met. Dialling is taken to succeed or fail eventually (Reconnect dials with context.TODO(), so only the operating system bounds it)."
 ],
 "C74": [
  "proved",
  "C74_reply: the readers on memory agree with those on values (for every splitting of the stream), and where the results lie; C74_call, C74_caller_writes: whole operations, and writes of the caller elsewhere; C74_kept, C74_apart: over any history (Spec.Using); C74_sends, C74_put_back: what is sent; C74_append; C74_layout, C74_append_binary, C74_flags_over_value: the shared array of binary items. Examples: Get, Set of the same item, Get over text; append(item.Flags, 'X') turning hello into Xello over binary."
 ],
 "C75": [
  "proved",
  "C75_history: every history of any clients equals the abstract one (Spec.runMany); C75_interop; C75_cas, C75_no_lost_update, C75_cas_refused: tokens; C75_multi: GetMulti without tokens; C75_count. Restrictions as in C52: arguments memcached accepts, flags below 2^31 (C18), no meta Touch, meta GetMulti of present keys (C25), no binary call after one that left bytes unread (C55), no binary counting after a store with a token by the same client (C28). Each call is one step of the shared server. Examples: three clients, one of each protocol."
 ],
 "C76": [
  "proved",
  "Put statements of every operation and reply on a bufio.Writer (Go/BufWrite) over a connection with arbitrary Write results. C76_prefix, C76_each, C76_success, C76_sticky, C76_last, C76_same, C76_one_write, C76_large: client; C76_server_same, C76_server: server. Sequential on one connection; reading is on a flat stream (C31). A panic while building a request leaves the bytes written so far in the buffer (C57; Spec.gave says which)."
 ],
 "C77": [
  "proved",
  "Client/Flow: one operation byte by byte over a connection with bounded capacity in each direction and a server that writes the reply to a request before it reads on. C77_ends, C77_finite, C77_fits, C77_one, C77_all_fit, C77_too_much: any server with framed requests; C77_text, C77_meta, C77_binary and the *_multi* theorems: reference memcached; C77_server, C77_server_multi: this repository's server with any handler. No deadlines and no failing connections here (those are in C54, C73, C76). Examples: 140000 keys over meta, 5000 keys over binary and this server with 64 KiB buffers; a text Get over a one-byte connection."
 ],
 "C78": [
  "proved",
  "Server/Memory: the request readers of the server on memory, one array per make, ReadBytes copying out of the buffer. C78_request: the readers on memory agree with those on values for every splitting of the stream, and where Flags and Value lie; C78_kept, C78_apart, C78_stream: any server at work (Spec.Serving: connections accepted and given up, requests read on any of them in any order, anybody making arrays and writing anywhere but into the read buffers of open connections); C78_append, C78_forward: what handlers do with a request; C78_served: every stream of requests leads to such a state. Reading one request is one step. Example: two Sets, the handler overwrites the value of the first."
 ],
 "C79": [
  "proved",
  "Client/Narrow: the goroutines of Client/Sched on the connection of Client/Flow, byte by byte. C79_refines, C79_finite, C79_run_on, C79_stop, C79_always, C79_served, C79_single: any server with framed requests; C79_text(_return), C79_meta, C79_binary: reference memcached; C79_too_much, C79_timeout, C79_for_ever, C79_dead, C79_meta_multi, C79_binary_multi: the deadlock and what becomes of the others. Binary operations as in C30 (replies read to the end). C79_too_much and the theorems built on it assume that nobody calls Close meanwhile; Reconnect is not in this model (C69, C73)."
 ],
 "C80": [
  "proved",
  "Client/Sched and Client/Narrow with the output of Server/Serve as the other side. C80_linear, C80_return: unlimited connection; C80_narrow, C80_narrow_results: bounded one; C80_multi: the binary GetMulti that hangs; C80_router, C80_router_return: a router in front of reference memcached servers (C47; the clock stands still). `Willing` (Spec/Served): the handler answers each operation in use, from every state of an invariant, in a way that has a meaning for the client (`Gives`, C16); operations this server does not understand (C12, C19, C64) are therefore excluded. The log shows of a Version only that it succeeded (its text: C16). One connection; several connections with one handler are C56. That the server closes the connection after an error is the step of Client/Sched in which the other side hangs up."
 ],
 "C81": [
  "proved",
  "Client/Joint: Client/Sched for every client and Server/Accept (one goroutine per connection, `atomically h`: handler calls one at a time) in one state; bytes a client has sent reach the server in pieces at any time and vice versa. C81_linear: one order of all handler calls and what each client's calls return; C81_under_way, C81_next, C81_real_time: where in that order the calls of a client lie, in terms of moments of the run and of the mutex; C81_up: the server never panics; C81_finite, C81_run_on, C81_return, C81_to_the_end: termination and what has happened then. `Courteous`/`Usable` (Spec/Joint): per request, what a usable answer is; operations this server does not understand (C12, C19, C64) are excluded by `Fit`. Connections hold any number of bytes (bounded ones: C79, C80). Reconnect is not in this model (C69, C73): a client has one connection. C81_return assumes that no goroutine of the client has panicked (C35: that takes Close by several goroutines or Close with Timeout on a text client); C81_to_the_end that the client is not closed."
 ],
 "C82": [
  "proved",
  "Spec/Meaning is the table (literal words, status names and error texts). C82_text_word, C82_meta_word, C82_text_number, C82_meta_number, C82_flush, C82_version: replies that are a line of at most 4096 bytes; C82_binary_head, C82_binary_foreign, C82_binary_fails, C82_binary_version, C82_binary_number, C82_binary_magic, C82_binary_multi_fails: binary; C82_text_get_line, C82_text_get_scan, C82_text_get_tail, C82_meta_get_line: errors of Get. Successful retrievals: C70; success of binary Replace and Delete: C20; incomplete replies: C22. Errors inside the blocks of a text or meta GetMulti and inside the head line of a meta value have the texts of the functions that parse them, and are covered only as 'not accepted' (C70) and 'not a panic' (C51). The error values of strconv and fmt are one constructor each."
 ],
 "C83": [
  "proved",
  "Client/Joint with Proxy/Sched as the handler: between two calls on memcached connections of one ServeRequest anything else may happen. Spec/JointRouter: `played` carries the calls out on one map, `Accounts` compares with what the goroutines saw. C83_linear: one moment; C83_real_time: two moments; C83_finite, C83_run_on, C83_return, C83_to_the_end: termination and what has happened then (deadlines as in C81; a call on a memcached server always gets its reply, C30/C52). Healthy: CAS numbers of the memcached servers stay below 2^63. One call on a memcached connection is one step (C30). The clients' calls are those the router is for (`Use`: Get of meta and binary clients, Set of all; C46-C50 for the rest)."
 ],
 "C84": [
  "proved",
  "Cluster/Wired: processes, connections (Client/Sched without Close and without deadlines that pass), memcached's end of them, pool methods as programs (Cluster/Sched). Spec/Wired: the same with every call carried out at once (`MomentRun`), replica pools with every method carried out at once (`IdealRun`). C84_refines: any pool methods over text or meta connections whose calls are one command each to which memcached gives a reply the client understands (`NextProper`, to be shown of the simple system only); C84_replica: replica pools; C84_pool: SinglePools over text connections, against one memcached (Spec/WiredPool, as Spec/PoolSched of C67), results alike up to tokens, server names and the order of items; C84_finite, C84_no_deadlock, C84_run_on (and C84_replica_*, C84_pool_*): termination. Not covered: GetMulti of meta connections (several commands; C25, C63), connections that go down (C32, C54, C60), Close (C35), heartbeats (C34, C71). Healthy: CAS numbers stay below 2^63."
 ],
 "C85": [
  "proved",
  "Cluster/Wired (the same system as C84, now with every `hangUp` allowed). Spec/WiredBreak: `ShakyRun` (any pool methods; calls carried out at one moment, lost, failed, or carried out late), `FrailRun` (methods of SinglePool on one key), `GoesOn`. C85_refines: text or meta connections whose calls are one command each to which memcached gives a reply the client understands (`NextFine`, to be shown of the simple system only); C85_pool, C85_at_most_once, C85_error_broken, C85_error_exact (call by call; C85_error_concrete), C85_counter, C85_lock: SinglePools over text connections, one-key methods (`FrailUse`); C85_finite, C85_no_deadlock, C85_run_on, C85_pool_run_on: termination (`GoesOn` leaves out what memcached does with bytes on broken connections: it is not waited for). C85_counter_exact, C85_lock_won: exactness when nobody got a connection error (C85_exact_concrete, C85_lock_concrete: three increments and three Adds while another process's connection is broken). C85_concrete: a run in which one call fails after being carried out and another is carried out after it has returned with an error. Not covered: Reconnect (C86), deadlines (C54), Close (C35), Flush and GetMulti of a SinglePool over broken connections beyond C85_refines. C85_read_after: what a Get can get once a call that changes its key has returned (C85_read_concrete); C85_read_whole: without connection errors while no connection to its server breaks. C85_found: a key that nobody removes is found (C85_found_concrete)."
 ],
 "C86": [
  "proved",
  "Cluster/Rewired (the system of C84/C85 over the clients of Client/Reconn: every goroutine may call Reconnect; every connection ever dialled has its own end at memcached). Spec/Rewired: `MendedRun` (any pool methods), `PatchedRun` (one-key methods of SinglePool). C86_refines: text or meta connections, under `NextFine` as C85; C86_pool, C86_at_most_once, C86_counter, C86_lock, C86_error_broken, C86_error_exact (call by call; C86_error_concrete): SinglePools over text connections, one-key methods (`PatchedUse`). C86_concrete: an increment fails, Reconnect, the next succeeds with 42, then the request of the first is carried out and the counter is 43. C86_counter_exact, C86_lock_won with C86_exact_concrete, C86_lock_concrete (a connection breaks and is replaced before). C86_finite, C86_no_deadlock, C86_run_on, C86_pool_run_on: termination of methods and Reconnect (`Spec.Rewired.GoesOn` leaves out what memcached does with bytes on connections that are broken or replaced: it is not waited for). Not covered: deadlines (C54), Close (C35). C86_read_after: what a Get can get once a call that changes its key has returned (C86_read_concrete). C86_found: a key that nobody removes is found (C86_found_concrete)."
 ],
 "C87": [
  "proved",
  "Cluster/Wired with every `hangUp` allowed and meta connections. Spec/WiredReplica: `TornRun` (methods carried out at one moment by the primary), `LeavesBehind`, `ByCall`, `Answered`. C87_pool: refinement; C87_commands; C87_error_broken; C87_run_on: termination (with C85_finite); C87_durable, C87_sole_writer: what the two servers hold (calls that change the key are Set, Add, Replace without expiration, Delete); C87_read_after: what is read after an acknowledged change (`ReadAfter`, `OneOfThese`), C87_read_concrete: a Set by one process, then a Get by another, while a third has lost its connections; C87_results: results. C87_found: a key that nobody removes is found (`Retains`, `Endures`; C87_found_concrete: a Get, an Increment, a Replace of three processes). C87_counter, C87_lock: counters and locks (C87_counter_concrete: three processes count from 41 to 44, C87_lock_concrete: three add a key, while a fourth has lost a connection; `Likened`: methods of replica pools as calls in no order). C87_concrete: a Set that fails with the primary changed, one with neither changed, which is carried out after it has returned, and two processes going on to the end while a connection to the secondary is broken. Methods: Get, Set, Add, Replace, Delete, Increment, Decrement without cas tokens (GetMulti, Touch and Flush of replica pools: C42-C45, C58, C61). Healthy: CAS numbers stay below 2^63. Not covered: Reconnect (C88), deadlines (C54)."
 ],
 "C88": [
  "proved",
  "Cluster/Rewired with meta connections. Spec/WiredReplica: `TornRun true` (methods carried out at one moment by the primary, connections broken and mended). RetornUse: the situation. C88_pool: refinement; C88_commands; C88_error_broken: errors between two moments; C88_run_on: termination (with C86_finite); C88_found, C88_counter, C88_lock, C88_durable, C88_sole_writer, C88_read_after, C88_results as for C87. C88_concrete: a Set fails and is not carried out, Reconnect, a second Set returns without an error and both copies have it, then the request of the first is carried out: the primary has the first value, the secondary the second, and another process reads the first. Methods: Get, Set, Add, Replace, Delete, Increment, Decrement without cas tokens. Healthy: CAS numbers stay below 2^63. Not covered: deadlines (C54), Close (C35)."
 ]
}