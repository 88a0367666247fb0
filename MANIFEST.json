{
 "claims": [
  {
   "property": "C01",
   "status": "proved",
   "theorems": [
    "Verif.Props.C01_pick",
    "Verif.Props.C01_pick_unique",
    "Verif.Props.C01_pools_without_clash"
   ],
   "note": "For every sorted ring; existence, uniqueness and equality with Pick. C01_pools_without_clash shows concrete real-size pools meet the hypotheses."
  },
  {
   "property": "C02",
   "status": "proved",
   "theorems": [
    "Verif.Props.C02_hit",
    "Verif.Props.C02_hit_last",
    "Verif.Props.C02_wrong_server"
   ],
   "note": "Both halves: termination with a configured server at or after the hit, and a concrete ring where the wrong server is chosen."
  },
  {
   "property": "C03",
   "status": "proved",
   "theorems": [
    "Verif.Props.C03_add_server",
    "Verif.Props.C03_exact_hit_moves"
   ],
   "note": "Growth theorem for keys not exactly on a point and rings without shared point hashes; C03_exact_hit_moves shows the first condition is needed."
  },
  {
   "property": "C04",
   "status": "proved",
   "theorems": [
    "Verif.Props.C04_order",
    "Verif.Props.C04_clash"
   ],
   "note": "Order independence without shared point hashes; C04_clash shows two servers sharing a hash break it."
  },
  {
   "property": "C05",
   "status": "proved",
   "theorems": [
    "Verif.Props.C05_size",
    "Verif.Props.C05_share",
    "Verif.Props.C05_member",
    "Verif.Props.C05_empty_panics",
    "Verif.Props.C05_find",
    "Verif.Props.C05_find_picked"
   ],
   "note": "Size, share, membership, panic on the empty ring, Find."
  },
  {
   "property": "C06",
   "status": "proved",
   "theorems": [
    "Verif.Props.C06_routing"
   ],
   "note": "All key lists, rings and map orders (map iteration order is an argument of the model)."
  },
  {
   "property": "C07",
   "status": "proved",
   "theorems": [
    "Verif.Props.C07_error",
    "Verif.Props.C07_any_failure",
    "Verif.Props.C07_hits"
   ],
   "note": "All answers and map orders; error case and hit case."
  },
  {
   "property": "C08",
   "status": "proved",
   "theorems": [
    "Verif.Props.C08_pool_is_one_map"
   ],
   "note": "Bisimulation with one map for all operations of Op; results compared up to the opaque cas token, the server name and the order of GetMulti items. Only programs with GetMulti or Flush need distinct server names."
  },
  {
   "property": "C09",
   "status": "proved",
   "theorems": [
    "Verif.Props.C09_flush_ok",
    "Verif.Props.C09_flush_err",
    "Verif.Props.C09_close_ok",
    "Verif.Props.C09_close_err",
    "Verif.Props.C09_version_ok",
    "Verif.Props.C09_version_err",
    "Verif.Props.C09_ring_close"
   ],
   "note": "Flush/Version/Close on SinglePool and Ring.Close, ok and error cases."
  },
  {
   "property": "C10",
   "status": "proved",
   "theorems": [
    "Verif.Props.C10_get",
    "Verif.Props.C10_getMulti",
    "Verif.Props.C10_set",
    "Verif.Props.C10_add",
    "Verif.Props.C10_replace",
    "Verif.Props.C10_delete",
    "Verif.Props.C10_increment",
    "Verif.Props.C10_decrement",
    "Verif.Props.C10_touch",
    "Verif.Props.C10_flush",
    "Verif.Props.C10_version",
    "Verif.Props.C10_long_key_misread"
   ],
   "note": "One theorem per operation plus the key-length boundary (65536 bytes is misread)."
  },
  {
   "property": "C11",
   "status": "proved",
   "theorems": [
    "Verif.Props.C11_get",
    "Verif.Props.C11_getMulti",
    "Verif.Props.C11_getMulti_nil",
    "Verif.Props.C11_set",
    "Verif.Props.C11_add",
    "Verif.Props.C11_replace",
    "Verif.Props.C11_delete",
    "Verif.Props.C11_increment",
    "Verif.Props.C11_decrement",
    "Verif.Props.C11_touch",
    "Verif.Props.C11_flush",
    "Verif.Props.C11_version"
   ],
   "note": "One theorem per operation."
  },
  {
   "property": "C12",
   "status": "proved",
   "theorems": [
    "Verif.Props.C12_get",
    "Verif.Props.C12_set",
    "Verif.Props.C12_delete",
    "Verif.Props.C12_add",
    "Verif.Props.C12_replace",
    "Verif.Props.C12_increment",
    "Verif.Props.C12_decrement",
    "Verif.Props.C12_flush",
    "Verif.Props.C12_version",
    "Verif.Props.C12_touch_rejected",
    "Verif.Props.C12_getMulti_noop_rejected"
   ],
   "note": "One theorem per operation, plus the two meta requests the server rejects."
  },
  {
   "property": "C13",
   "status": "proved",
   "theorems": [
    "Verif.Props.C13_get",
    "Verif.Props.C13_get_miss",
    "Verif.Props.C13_getMulti"
   ],
   "note": ""
  },
  {
   "property": "C14",
   "status": "proved",
   "theorems": [
    "Verif.Props.C14_get",
    "Verif.Props.C14_get_miss"
   ],
   "note": ""
  },
  {
   "property": "C15",
   "status": "proved",
   "theorems": [
    "Verif.Props.C15_get",
    "Verif.Props.C15_getMulti"
   ],
   "note": ""
  },
  {
   "property": "C16",
   "status": "proved",
   "theorems": [
    "Verif.Props.C16_operations",
    "Verif.Props.C16_operations_lockstep",
    "Verif.Props.C16_every",
    "Verif.Props.C16_session",
    "Verif.Props.C16_lockstep"
   ],
   "note": "All sequences, all handlers, by induction on the session. C16_operations/C16_every state it over sequences of client operations (what the caller asked for and what the handler was willing to answer), not over what the client's readers accept."
  },
  {
   "property": "C17",
   "status": "proved",
   "theorems": [
    "Verif.Props.C17_text",
    "Verif.Props.C17_meta",
    "Verif.Props.C17_injection",
    "Verif.Props.C17_injection_unread",
    "Verif.Props.C17_space"
   ],
   "note": "Text and meta: one command per request for plain keys; concrete injections through CRLF and through a space in the key."
  },
  {
   "property": "C18",
   "status": "proved",
   "theorems": [
    "Verif.Props.C18_text_below",
    "Verif.Props.C18_text_above",
    "Verif.Props.C18_meta_below",
    "Verif.Props.C18_meta_above",
    "Verif.Props.C18_binary",
    "Verif.Props.C18_text_read",
    "Verif.Props.C18_meta_read",
    "Verif.Props.C18_memcached_text",
    "Verif.Props.C18_memcached_meta"
   ],
   "note": "All flag values, per protocol and peer; failing halves proved as failing for every value."
  },
  {
   "property": "C19",
   "status": "proved",
   "theorems": [
    "Verif.Props.C19_text",
    "Verif.Props.C19_meta",
    "Verif.Props.C19_binary",
    "Verif.Props.C19_text_else",
    "Verif.Props.C19_meta_else",
    "Verif.Props.C19_binary_else"
   ],
   "note": "Iff characterisations per protocol."
  },
  {
   "property": "C20",
   "status": "proved",
   "theorems": [
    "Verif.Props.C20_add_text",
    "Verif.Props.C20_add_meta",
    "Verif.Props.C20_replace_text",
    "Verif.Props.C20_replace_meta",
    "Verif.Props.C20_flush_text",
    "Verif.Props.C20_flush_meta",
    "Verif.Props.C20_arith_text",
    "Verif.Props.C20_arith_meta",
    "Verif.Props.C20_delete_meta",
    "Verif.Props.C20_touch_meta",
    "Verif.Props.C20_delete_text",
    "Verif.Props.C20_touch_text",
    "Verif.Props.C20_false_success",
    "Verif.Props.C20_add_binary",
    "Verif.Props.C20_replace_binary",
    "Verif.Props.C20_delete_binary",
    "Verif.Props.C20_arith_binary",
    "Verif.Props.C20_touch_binary",
    "Verif.Props.C20_flush_binary"
   ],
   "note": "Iff characterisations per operation and protocol, including the three refuted cases."
  },
  {
   "property": "C21",
   "status": "proved",
   "theorems": [
    "Verif.Props.C21_get_text",
    "Verif.Props.C21_set_text",
    "Verif.Props.C21_add_text",
    "Verif.Props.C21_add_meta",
    "Verif.Props.C21_replace_text",
    "Verif.Props.C21_replace_meta",
    "Verif.Props.C21_delete_text",
    "Verif.Props.C21_touch_text",
    "Verif.Props.C21_arith_text",
    "Verif.Props.C21_arith_meta",
    "Verif.Props.C21_get_meta",
    "Verif.Props.C21_set_meta",
    "Verif.Props.C21_delete_meta",
    "Verif.Props.C21_touch_meta",
    "Verif.Props.C21_get_binary",
    "Verif.Props.C21_set_binary",
    "Verif.Props.C21_add_binary",
    "Verif.Props.C21_replace_binary",
    "Verif.Props.C21_delete_binary",
    "Verif.Props.C21_arith_binary",
    "Verif.Props.C21_touch_binary"
   ],
   "note": "Iff characterisations per operation and protocol."
  },
  {
   "property": "C22",
   "status": "proved",
   "theorems": [
    "Verif.Props.C22_text",
    "Verif.Props.C22_meta",
    "Verif.Props.C22_binary",
    "Verif.Props.C22_version",
    "Verif.Props.C22_no_reply"
   ],
   "note": "All operations of the three protocols, every proper prefix of what the operation reads."
  },
  {
   "property": "C23",
   "status": "proved",
   "theorems": [
    "Verif.Props.C23_text_get",
    "Verif.Props.C23_text_getMulti",
    "Verif.Props.C23_meta_get",
    "Verif.Props.C23_meta_no_tokens",
    "Verif.Props.C23_binary_get",
    "Verif.Props.C23_binary_wrap"
   ],
   "note": "Text Get/GetMulti, meta Get, binary Get; the two cases in which it is false (VA line without tokens, 16-bit length wrap) are theorems as well."
  },
  {
   "property": "C24",
   "status": "proved",
   "theorems": [
    "Verif.Props.C24_text_lines",
    "Verif.Props.C24_meta_lines",
    "Verif.Props.C24_get_lines",
    "Verif.Props.C24_binary_reads",
    "Verif.Props.C24_binary_body_left",
    "Verif.Props.C24_next_fails"
   ],
   "note": "All single-line replies, all non-value lines of Get, binary operations by operation; the operations that leave the body unread, and the failure of the next call, are theorems."
  },
  {
   "property": "C25",
   "status": "proved",
   "theorems": [
    "Verif.Props.C25_all_present",
    "Verif.Props.C25_first_missing",
    "Verif.Props.C25_wrong_value"
   ],
   "note": "Both the all-present case and the refutation with a missing key."
  },
  {
   "property": "C26",
   "status": "proved",
   "theorems": [
    "Verif.Props.C26_binary_getMulti",
    "Verif.Props.C26_text_getMulti"
   ],
   "note": "Text: any list of VALUE blocks and END; binary: any list of hit headers with their parts and the no-op reply."
  },
  {
   "property": "C27",
   "status": "proved",
   "theorems": [
    "Verif.Props.C27_memcached",
    "Verif.Props.C27_binary"
   ],
   "note": "Text and meta against the memcached model (any counter), binary for every reply."
  },
  {
   "property": "C28",
   "status": "proved",
   "theorems": [
    "Verif.Props.C28_memcached",
    "Verif.Props.C28_independent",
    "Verif.Props.C28_history",
    "Verif.Props.C28_counting",
    "Verif.Props.C28_counting_clean",
    "Verif.Props.C28_stale",
    "Verif.Props.C28_stale_differs"
   ],
   "note": "Histories of calls with a nondeterministic header pool; C28_counting says exactly which stale Cas Increment/Decrement can carry, C28_stale exhibits it. C28_memcached: memcached then refuses the counting."
  },
  {
   "property": "C29",
   "status": "proved",
   "theorems": [
    "Verif.Props.C29_text_set_sends",
    "Verif.Props.C29_meta_set_sends",
    "Verif.Props.C29_store_sends",
    "Verif.Props.C29_text_set",
    "Verif.Props.C29_meta_set",
    "Verif.Props.C29_text_set_clean",
    "Verif.Props.C29_store",
    "Verif.Props.C29_binary",
    "Verif.Props.C29_binary_sends",
    "Verif.Props.C29_neighbour"
   ],
   "note": "Memory model with arrays, offset, length, capacity; exact effect of text/meta Set, no effect of the others; the calls also refine the flat model used elsewhere."
  },
  {
   "property": "C30",
   "status": "proved",
   "theorems": [
    "Verif.Sched.C30_one_outstanding",
    "Verif.Sched.C30_linear",
    "Verif.Sched.C30_sequential",
    "Verif.Sched.C30_own_reply",
    "Verif.Sched.C30_memcached_text",
    "Verif.Sched.C30_memcached_meta",
    "Verif.Sched.C30_memcached_binary",
    "Verif.Sched.C30_binary_concrete",
    "Verif.Sched.C30_no_lock_leak"
   ],
   "note": "Shared-connection model with every lock, field access, partial write and arrival a step; any server, any number of goroutines, Close allowed; C30_own_reply for exact replies, C30_memcached_text/meta/binary against the reference memcached; binary operations whose replies are read to the end (the others: C55); C30_binary_concrete."
  },
  {
   "property": "C31",
   "status": "proved",
   "theorems": [
    "Verif.Props.C31_text",
    "Verif.Props.C31_meta",
    "Verif.Props.C31_binary",
    "Verif.Props.C31_version",
    "Verif.Props.C31_any_two",
    "Verif.Props.C31_serve",
    "Verif.Props.C31_text_history",
    "Verif.Props.C31_meta_history"
   ],
   "note": "bufio.Reader (ReadSlice, ReadBytes, Read, Peek) and io.ReadFull modelled over a connection that delivers arbitrary pieces; every client operation, every sequence of operations, the serve loop and whole memcached histories."
  },
  {
   "property": "C32",
   "status": "proved",
   "theorems": [
    "Verif.Props.C32_text",
    "Verif.Props.C32_close_is_final"
   ],
   "note": "All histories of operations, Close and Reconnect of the lifecycle model."
  },
  {
   "property": "C33",
   "status": "proved",
   "theorems": [
    "Verif.Props.C33_fresh",
    "Verif.Props.C33_reconnects",
    "Verif.Props.C33_failed_dial_is_final",
    "Verif.Props.C33_text_failed_dial",
    "Verif.Props.C33_text_not_closable",
    "Verif.Props.C33_text_stuck"
   ],
   "note": "Both the working half and the four defects (failed dial final, Close of meta/binary final, text client not closable, stuck)."
  },
  {
   "property": "C34",
   "status": "proved",
   "theorems": [
    "Verif.Props.C34_one_probe",
    "Verif.Props.C34_probed",
    "Verif.Props.C34_leak",
    "Verif.Props.C34_returns_only",
    "Verif.Props.C34_bounded",
    "Verif.Props.C34_text_ends",
    "Verif.Props.C34_text_give_up"
   ],
   "note": "All schedules of timer, close and probe outcomes; at most one probe, leak of the goroutine."
  },
  {
   "property": "C35",
   "status": "proved",
   "theorems": [
    "Verif.Sched.C35_clean",
    "Verif.Sched.C35_unblocked",
    "Verif.Sched.C35_no_panic",
    "Verif.Sched.C35_no_panic_others",
    "Verif.Sched.C35_timeout_panics",
    "Verif.Sched.C35_double_close_panics"
   ],
   "note": "C35_clean/unblocked/no_panic for all schedules; the two panicking schedules for every call."
  },
  {
   "property": "C36",
   "status": "proved",
   "theorems": [
    "Verif.Props.C36_serve",
    "Verif.Props.C36_in_order",
    "Verif.Props.C36_complete",
    "Verif.Props.C36_online"
   ],
   "note": ""
  },
  {
   "property": "C37",
   "status": "proved",
   "theorems": [
    "Verif.Props.C37_first_byte",
    "Verif.Props.C37_fixed",
    "Verif.Props.C37_empty"
   ],
   "note": ""
  },
  {
   "property": "C38",
   "status": "proved",
   "theorems": [
    "Verif.Props.C38_write",
    "Verif.Props.C38_serve",
    "Verif.Props.C38_first",
    "Verif.Props.C38_case",
    "Verif.Props.C38_handler_case",
    "Verif.Props.C38_parse"
   ],
   "note": "Exact characterisation of the panicking requests over all byte streams and protocol states (readers), writer panics for empty response lists, and the whole serve loop."
  },
  {
   "property": "C39",
   "status": "proved",
   "theorems": [
    "Verif.Props.C39_silent",
    "Verif.Props.C39_carries_on",
    "Verif.Props.C39_get",
    "Verif.Props.C39_get_bytes",
    "Verif.Props.C39_case"
   ],
   "note": "Silent for all but Get; Get writes an empty hit in each protocol; the client side shown to take it for a hit."
  },
  {
   "property": "C40",
   "status": "proved",
   "theorems": [
    "Verif.Props.C40_binary_header",
    "Verif.Props.C40_binary_set",
    "Verif.Props.C40_binary_add",
    "Verif.Props.C40_binary_replace",
    "Verif.Props.C40_binary_delete",
    "Verif.Props.C40_binary_touch",
    "Verif.Props.C40_binary_flush",
    "Verif.Props.C40_binary_version",
    "Verif.Props.C40_binary_increment",
    "Verif.Props.C40_binary_decrement",
    "Verif.Props.C40_meta_set",
    "Verif.Props.C40_meta_delete",
    "Verif.Props.C40_meta_add",
    "Verif.Props.C40_meta_replace",
    "Verif.Props.C40_meta_increment",
    "Verif.Props.C40_meta_decrement",
    "Verif.Props.C40_meta_flush",
    "Verif.Props.C40_meta_version",
    "Verif.Props.C40_text_get",
    "Verif.Props.C40_text_set",
    "Verif.Props.C40_text_add",
    "Verif.Props.C40_text_replace",
    "Verif.Props.C40_text_delete",
    "Verif.Props.C40_text_increment",
    "Verif.Props.C40_text_decrement",
    "Verif.Props.C40_text_touch",
    "Verif.Props.C40_text_flush",
    "Verif.Props.C40_text_version"
   ],
   "note": ""
  },
  {
   "property": "C41",
   "status": "proved",
   "theorems": [
    "Verif.Props.C41_set",
    "Verif.Props.C41_add",
    "Verif.Props.C41_replace",
    "Verif.Props.C41_delete",
    "Verif.Props.C41_increment",
    "Verif.Props.C41_decrement",
    "Verif.Props.C41_get",
    "Verif.Props.C41_getMulti",
    "Verif.Props.C41_picks"
   ],
   "note": "All operations, arbitrary server behaviours."
  },
  {
   "property": "C42",
   "status": "proved",
   "theorems": [
    "Verif.Props.C42_call",
    "Verif.Props.C42_step",
    "Verif.Props.C42_history"
   ],
   "note": "ReplicaPool over reference memcached servers (Mc), meta protocol, arbitrary hashes; C42_call is the exact effect of each call, C42_history the agreement after any history."
  },
  {
   "property": "C43",
   "status": "proved",
   "theorems": [
    "Verif.Props.C43_count",
    "Verif.Props.C43_agree",
    "Verif.Props.C43_failed",
    "Verif.Props.C43_past_int64",
    "Verif.Props.C43_concrete"
   ],
   "note": "Exact characterisation (iff) of when the copies agree after a successful Increment/Decrement; counterexamples to the stronger reading are theorems (never-expiring items, results of 2^63 and more)."
  },
  {
   "property": "C44",
   "status": "proved",
   "theorems": [
    "Verif.Props.C44_set",
    "Verif.Props.C44_add",
    "Verif.Props.C44_reachable",
    "Verif.Props.C44_concrete"
   ],
   "note": "Exact outcome of Set with the primary's token, for all states of both replicas; C44_reachable/C44_concrete: the failing case is reached by ordinary use."
  },
  {
   "property": "C45",
   "status": "proved",
   "theorems": [
    "Verif.Props.C45_sequential",
    "Verif.Props.C45_no_lost_update",
    "Verif.Props.C45_results",
    "Verif.Props.C45_secondary_not_invented",
    "Verif.Props.C45_unique_numbers",
    "Verif.Props.C45_secondary_stale",
    "Verif.Props.C45_concrete"
   ],
   "note": "Any number of goroutines, any schedule of the individual connection calls (atomic: mutex of the connection, C30, and atomic memcached commands) and of passing time; C45_sequential ties the call sequences to the pool's methods."
  },
  {
   "property": "C46",
   "status": "proved",
   "theorems": [
    "Verif.Props.C46_handler",
    "Verif.Props.C46_closes",
    "Verif.Props.C46_client",
    "Verif.Props.C46_operations"
   ],
   "note": "For every request (any bytes the server reads) and any backends; the client operations concerned are enumerated in C46_operations."
  },
  {
   "property": "C47",
   "status": "proved",
   "theorems": [
    "Verif.Props.C47_set",
    "Verif.Props.C47_get",
    "Verif.Props.C47_round_trip",
    "Verif.Props.C47_history",
    "Verif.Props.C47_concrete",
    "Verif.Props.C47_history_concrete"
   ],
   "note": "serve loop + request readers + proxy + pool + meta client + reference memcached + reply writers + client readers composed at byte level; C47_history: any history, any mix of clients, any delays."
  },
  {
   "property": "C48",
   "status": "proved",
   "theorems": [
    "Verif.Props.C48_miss",
    "Verif.Props.C48_text",
    "Verif.Props.C48_concrete",
    "Verif.Props.C48_text_concrete"
   ],
   "note": "The property as a user would want it is false; what happens instead is proved for all keys, per protocol."
  },
  {
   "property": "C49",
   "status": "proved",
   "theorems": [
    "Verif.Props.C49_lookup",
    "Verif.Props.C49_key_ignored",
    "Verif.Props.C49_same_result",
    "Verif.Props.C49_concrete"
   ],
   "note": "False as wanted; independence of the key is proved for all keys, all backends."
  },
  {
   "property": "C50",
   "status": "proved",
   "theorems": [
    "Verif.Props.C50_get",
    "Verif.Props.C50_meta_set",
    "Verif.Props.C50_other_set",
    "Verif.Props.C50_concrete",
    "Verif.Props.C50_other_concrete"
   ],
   "note": "False as wanted; proved that Get never returns flags and that a meta Set stores none, and that text and binary Sets do store theirs."
  },
  {
   "property": "C51",
   "status": "proved",
   "theorems": [
    "Verif.Props.C51_never",
    "Verif.Props.C51_bare_newline",
    "Verif.Props.C51_text_get",
    "Verif.Props.C51_text_getMulti",
    "Verif.Props.C51_meta_get",
    "Verif.Props.C51_meta_getMulti",
    "Verif.Props.C51_binary_get",
    "Verif.Props.C51_binary_arith",
    "Verif.Props.C51_binary_getMulti",
    "Verif.Props.C51_arguments"
   ],
   "note": "Equivalences for every operation of the three protocols (meta GetMulti: necessary condition and the first-reply case), and for the arguments."
  },
  {
   "property": "C52",
   "status": "proved",
   "theorems": [
    "Verif.Props.C52_binary_call",
    "Verif.Props.C52_binary_history",
    "Verif.Props.C52_text_call",
    "Verif.Props.C52_text_history",
    "Verif.Props.C52_meta_call",
    "Verif.Props.C52_meta_history"
   ],
   "note": "Every history over a text connection; also meta histories (Touch excluded: it sends `md`; GetMulti of present keys only). C52_binary_call/_history: the binary client with headers recycled in any order; every exception is explicit (leftOver, C55; UsesToken, C28)."
  },
  {
   "property": "C53",
   "status": "proved",
   "theorems": [
    "Verif.Props.C53_stale",
    "Verif.Props.C53_split",
    "Verif.Props.C53_concrete"
   ],
   "note": "False as wanted; proved for all items and states that no reply is sent."
  },
  {
   "property": "C54",
   "status": "proved",
   "theorems": [
    "Verif.Sched.C54_late_reply",
    "Verif.Sched.C54_wrong_items",
    "Verif.Sched.C54_shifted",
    "Verif.Sched.C54_meta_mislabelled",
    "Verif.Sched.C54_binary_mislabelled",
    "Verif.Sched.C54_mislabelled_concrete"
   ],
   "note": "False as wanted; C54_late_reply for any server and pair of calls, C54_wrong_items: the shift by one persists for all later Gets; C54_shifted: any number of calls of any kind; C54_meta_mislabelled, C54_binary_mislabelled: values under the wrong key; C54_mislabelled_concrete."
  },
  {
   "property": "C55",
   "status": "proved",
   "theorems": [
    "Verif.Props.C55_next_call",
    "Verif.Props.C55_for_good"
   ],
   "note": "False as wanted; C55_next_call for any next operation, C55_for_good: no later change is ever acknowledged."
  },
  {
   "property": "C56",
   "status": "proved",
   "theorems": [
    "Verif.Props.C56_session",
    "Verif.Props.C56_prefix",
    "Verif.Props.C56_caught_up",
    "Verif.Props.C56_frame",
    "Verif.Props.C56_no_blocking",
    "Verif.Props.C56_no_blocking_return",
    "Verif.Props.C56_clients",
    "Verif.Props.C56_crash",
    "Verif.Props.C56_dead",
    "Verif.Props.C56_down",
    "Verif.Props.C56_linear",
    "Verif.Props.C56_real_time",
    "Verif.Props.C56_answerable",
    "Verif.Props.C56_operations"
   ],
   "note": "The good part by invariants over all interleavings (C56_session/prefix/caught_up/linear/real_time/no_blocking/answerable/clients); the shared-fate part is C56_crash/dead, with C56_down its converse. C56_operations states C56_clients over client operations of any protocol mix."
  },
  {
   "property": "C57",
   "status": "proved",
   "theorems": [
    "Verif.Props.C57_only",
    "Verif.Props.C57_meta",
    "Verif.Props.C57_binary",
    "Verif.Props.C57_mistaken",
    "Verif.Props.C57_waits",
    "Verif.Props.C57_get_stores"
   ],
   "note": "False as wanted for binary connections: C57_binary/mistaken/waits for any next call, C57_get_stores for a Get; C57_meta is the good case, C57_only the list of calls concerned."
  },
  {
   "property": "C58",
   "status": "proved",
   "theorems": [
    "Verif.Props.C58_agree",
    "Verif.Props.C58_diverge",
    "Verif.Props.C58_concrete",
    "Verif.Props.C58_linear",
    "Verif.Props.C58_returns",
    "Verif.Props.C58_secondary"
   ],
   "note": "For the callers: C58_linear (with the one exception stated) and C58_returns; secondaries: C58_secondary and C58_agree; the failing part: C58_diverge, C58_concrete. GetMulti is a sequence of calls on single servers and is not among the operations (C41 covers it sequentially)."
  },
  {
   "property": "C59",
   "status": "proved",
   "theorems": [
    "Verif.Props.C59_clients",
    "Verif.Props.C59_concrete",
    "Verif.Props.C59_atomic",
    "Verif.Props.C59_linear",
    "Verif.Props.C59_sequential",
    "Verif.Props.C59_no_waiting"
   ],
   "note": "For well-formed requests without token over healthy memcached servers (the failing rest: C46-C53). C59_atomic: trace inclusion in an atomic shelf; C59_linear; C59_clients: end to end in terms of client calls; C59_no_waiting for all requests and servers; C59_sequential ties the interleaved handler to the one of C46-C53."
  },
  {
   "property": "C60",
   "status": "proved",
   "theorems": [
    "Verif.Props.C60_history",
    "Verif.Props.C60_any_moment",
    "Verif.Props.C60_never_again",
    "Verif.Props.C60_half_written",
    "Verif.Props.C60_others_unaffected",
    "Verif.Props.C60_concrete"
   ],
   "note": "False as wanted (never reconnects). C60_history: exact answers when connections break between calls; C60_any_moment: what may be seen when they break at any moment; C60_never_again, C60_half_written, C60_others_unaffected are consequences. Calls one after the other; calls of C59 kind (good arguments, healthy servers as long as connected)."
  },
  {
   "property": "C61",
   "status": "proved",
   "theorems": [
    "Verif.Props.C61_serves",
    "Verif.Props.C61_exits",
    "Verif.Props.C61_one_dead",
    "Verif.Props.C61_cases",
    "Verif.Props.C61_no_config",
    "Verif.Props.C61_iff",
    "Verif.Props.C61_two_rings",
    "Verif.Props.C61_placement",
    "Verif.Props.C61_no_secondary",
    "Verif.Props.C61_no_primary",
    "Verif.Props.C61_concrete",
    "Verif.Props.C61_dead_concrete",
    "Verif.Props.C61_placement_concrete",
    "Verif.Props.C61_no_secondary_concrete"
   ],
   "note": "C61_serves/exits/one_dead/no_config/cases/iff: the start; C61_placement: names decide (without shared points, C04); C61_two_rings: the hypotheses of C42-C60 hold of every router started with servers in both roles; C61_no_secondary, C61_no_primary: the failing configurations. YAML parsing is not modelled."
  },
  {
   "property": "C62",
   "status": "proved",
   "theorems": [
    "Verif.Props.C62_get",
    "Verif.Props.C62_set",
    "Verif.Props.C62_add",
    "Verif.Props.C62_replace",
    "Verif.Props.C62_delete",
    "Verif.Props.C62_increment",
    "Verif.Props.C62_decrement",
    "Verif.Props.C62_touch",
    "Verif.Props.C62_always",
    "Verif.Props.C62_empty"
   ],
   "note": "One theorem per method, over arbitrary servers with a log of calls; C62_always: a server exists for every key; C62_empty: the panic."
  },
  {
   "property": "C63",
   "status": "proved",
   "theorems": [
    "Verif.Props.C63_mg",
    "Verif.Props.C63_mg_later_ignored",
    "Verif.Props.C63_mg_bare",
    "Verif.Props.C63_ms",
    "Verif.Props.C63_mg_reply",
    "Verif.Props.C63_mg_miss",
    "Verif.Props.C63_mg_without_v",
    "Verif.Props.C63_ms_reply",
    "Verif.Props.C63_mg_concrete",
    "Verif.Props.C63_reply_concrete",
    "Verif.Props.C63_ms_concrete"
   ],
   "note": "C63_mg/later_ignored/bare/reply/miss/without_v for mg, C63_ms/ms_reply for ms (tokens given as a data type with its text; numbers in canonical decimal). Ill-formed tokens: C38, C36."
  },
  {
   "property": "C64",
   "status": "proved",
   "theorems": [
    "Verif.Props.C64_binary",
    "Verif.Props.C64_binary_several",
    "Verif.Props.C64_router_binary",
    "Verif.Props.C64_router_binary_cut",
    "Verif.Props.C64_meta_all",
    "Verif.Props.C64_meta_miss",
    "Verif.Props.C64_router_meta",
    "Verif.Props.C64_binary_concrete",
    "Verif.Props.C64_several_concrete",
    "Verif.Props.C64_meta_concrete",
    "Verif.Props.C64_router_concrete"
   ],
   "note": "C64_binary/binary_several: any handler; C64_meta_all/meta_miss: any handler; C64_router_binary, C64_router_meta: the router over arbitrary memcached servers (values of transmissible size)."
  },
  {
   "property": "C65",
   "status": "proved",
   "theorems": [
    "Verif.Props.C65_text",
    "Verif.Props.C65_first",
    "Verif.Props.C65_unambiguous",
    "Verif.Props.C65_split",
    "Verif.Props.C65_stream",
    "Verif.Props.C65_refused",
    "Verif.Props.C65_own_refused",
    "Verif.Props.C65_noreply",
    "Verif.Props.C65_bare_lf",
    "Verif.Props.C65_concrete"
   ],
   "note": "C65_text: exact grammar (both directions); C65_first: first request of a connection; C65_unambiguous/split/stream: whole streams; C65_refused/own_refused/noreply/bare_lf: the surprising cases. The grammar is Spec/Grammar.lean."
  },
  {
   "property": "C66",
   "status": "proved",
   "theorems": [
    "Verif.Props.C66_binary",
    "Verif.Props.C66_first",
    "Verif.Props.C66_unambiguous",
    "Verif.Props.C66_split",
    "Verif.Props.C66_stream",
    "Verif.Props.C66_refused",
    "Verif.Props.C66_ignored",
    "Verif.Props.C66_body_unread",
    "Verif.Props.C66_length_ignored",
    "Verif.Props.C66_concrete"
   ],
   "note": "C66_binary: exact grammar (both directions); C66_first/unambiguous/split/stream; C66_refused/ignored/body_unread/length_ignored: the surprising cases."
  },
  {
   "property": "C67",
   "status": "proved",
   "theorems": [
    "Verif.Props.C67_sequential",
    "Verif.Props.C67_refines",
    "Verif.Props.C67_one_server",
    "Verif.Props.C67_lock",
    "Verif.Props.C67_counter",
    "Verif.Props.C67_concrete",
    "Verif.Props.C67_getMulti_torn",
    "Verif.Props.C67_flush_split"
   ],
   "note": "C67_refines: simulation by the specification in Spec/PoolSched.lean (same schedule); C67_sequential ties the interleaved programs to the sequential model of C06-C09; C67_one_server, C67_lock, C67_counter: consequences; C67_getMulti_torn, C67_flush_split: concrete runs under the real hash functions showing the limits; C67_concrete: hypotheses met. One call on a connection is one step (C30)."
  },
  {
   "property": "C68",
   "status": "proved",
   "theorems": [
    "Verif.Sched.C68_finite",
    "Verif.Sched.C68_stop",
    "Verif.Sched.C68_always",
    "Verif.Sched.C68_served",
    "Verif.Sched.C68_run_on",
    "Verif.Sched.C68_memcached_text",
    "Verif.Sched.C68_memcached_meta",
    "Verif.Sched.C68_silent",
    "Verif.Sched.C68_concrete",
    "Verif.Sched.C68_memcached_binary"
   ],
   "note": "C68_finite: well-founded measure on all steps; C68_stop: what a stopped state looks like; C68_always, C68_served, C68_memcached_text/_meta/_binary: when all calls return; C68_run_on: every state can be carried on to a stop; C68_silent: a server that does not answer; C68_concrete: hypotheses met. Fairness between goroutines competing for the mutex with endless new calls is not claimed."
  },
  {
   "property": "C69",
   "status": "proved",
   "theorems": [
    "Verif.Reconn.C69_linear",
    "Verif.Reconn.C69_sequential",
    "Verif.Reconn.C69_wires",
    "Verif.Reconn.C69_memcached_text",
    "Verif.Reconn.C69_one_open",
    "Verif.Reconn.C69_leak",
    "Verif.Reconn.C69_concrete",
    "Verif.Reconn.C69_memcached_meta",
    "Verif.Reconn.C69_memcached_binary"
   ],
   "note": "C69_linear, C69_sequential: every epoch is linearizable up to its first failure; C69_wires: no request reaches another connection; C69_memcached_text/_meta/_binary: against memcached; C69_one_open: no connection is left behind without Close; C69_leak: a Close during Reconnect that leaves a connection open in all continuations; C69_concrete: a run with failure and recovery. Memory is taken to be sequentially consistent."
  },
  {
   "property": "C70",
   "status": "proved",
   "theorems": [
    "Verif.Props.C70_binary_get",
    "Verif.Props.C70_binary_getMulti",
    "Verif.Props.C70_binary_other",
    "Verif.Props.C70_meta_get",
    "Verif.Props.C70_meta_get_panics",
    "Verif.Props.C70_meta_getMulti",
    "Verif.Props.C70_meta_no_space",
    "Verif.Props.C70_meta_negative",
    "Verif.Props.C70_text_get",
    "Verif.Props.C70_text_get_panics",
    "Verif.Props.C70_text_getMulti",
    "Verif.Props.C70_text_get_junk",
    "Verif.Props.C70_text_negative"
   ],
   "note": "C70_text_get, C70_text_getMulti, C70_meta_get, C70_meta_getMulti, C70_binary_get, C70_binary_getMulti: the accepted replies, in both directions; C70_text_get_panics, C70_meta_get_panics: the replies that panic; C70_text_get_junk, C70_text_negative, C70_meta_no_space, C70_meta_negative, C70_binary_other: cases a user would not expect."
  },
  {
   "property": "C71",
   "status": "proved",
   "theorems": [
    "Verif.Heart.C71_options",
    "Verif.Heart.C71_options_concrete",
    "Verif.Heart.C71_dial_fails",
    "Verif.Heart.C71_bad_option",
    "Verif.Heart.C71_embeds",
    "Verif.Heart.C71_linear",
    "Verif.Heart.C71_heartbeat",
    "Verif.Heart.C71_probe_once",
    "Verif.Heart.C71_give_up",
    "Verif.Heart.C71_no_second_reconnect",
    "Verif.Heart.C71_close_undone",
    "Verif.Heart.C71_reconnects",
    "Verif.Heart.C71_gives_up",
    "Verif.Reconn.C71_shut_for_good"
   ],
   "note": "C71_options, C71_dial_fails, C71_bad_option: the constructors; C71_embeds: runs with a heartbeat are runs of the model of C69 (C71_linear spells one consequence out); C71_heartbeat: the heartbeat among goroutines follows the one of C34; C71_probe_once, C71_no_second_reconnect; C71_shut_for_good, C71_give_up; C71_close_undone: existence of a run and all its continuations; C71_options_concrete, C71_reconnects, C71_gives_up: hypotheses met."
  },
  {
   "property": "C72",
   "status": "proved",
   "theorems": [
    "Verif.Race.C72_only_close",
    "Verif.Race.C72_no_race",
    "Verif.Race.C72_meta_binary",
    "Verif.Race.C72_meta_binary_no_reconnect",
    "Verif.Race.C72_close_reconnect",
    "Verif.Race.C72_text_close_operation",
    "Verif.Race.C72_text_two_closes",
    "Verif.Race.C72_heartbeat",
    "Verif.Race.C72_writes",
    "Verif.Race.C72_reads_raw",
    "Verif.Race.C72_reads_closeCh",
    "Verif.Race.C72_reads_conn"
   ],
   "note": "C72_only_close, C72_no_race, C72_meta_binary, C72_meta_binary_no_reconnect: no other races in any reachable state; C72_close_reconnect, C72_text_close_operation, C72_text_two_closes, C72_heartbeat: reachable races; C72_writes, C72_reads_raw, C72_reads_closeCh, C72_reads_conn: the table of accesses agrees with the steps of the model. A race is two enabled conflicting accesses of different goroutines in an interleaved execution."
  },
  {
   "property": "C73",
   "status": "proved",
   "theorems": [
    "Verif.Reconn.C73_finite",
    "Verif.Reconn.C73_run_on",
    "Verif.Reconn.C73_stop",
    "Verif.Reconn.C73_always",
    "Verif.Reconn.C73_served",
    "Verif.Reconn.C73_close_frees",
    "Verif.Reconn.C73_stuck",
    "Verif.Reconn.C73_memcached_text",
    "Verif.Reconn.C73_concrete",
    "Verif.Reconn.C73_stuck_concrete"
   ],
   "note": "C73_finite, C73_run_on: no endless runs; C73_stop: the states in which runs stop; C73_always, C73_served, C73_memcached_text: when that is only with all calls returned; C73_close_frees; C73_stuck: closed, reconnected text client; C73_concrete, C73_stuck_concrete: hypotheses met. Dialling is taken to succeed or fail eventually (Reconnect dials with context.TODO(), so only the operating system bounds it)."
  },
  {
   "property": "C74",
   "status": "proved",
   "theorems": [
    "Verif.Mem.C74_reply",
    "Verif.Mem.C74_call",
    "Verif.Mem.C74_caller_writes",
    "Verif.Mem.C74_kept",
    "Verif.Mem.C74_apart",
    "Verif.Mem.C74_append",
    "Verif.Mem.C74_append_binary",
    "Verif.Mem.C74_layout",
    "Verif.Mem.C74_flags_over_value",
    "Verif.Mem.C74_sends",
    "Verif.Mem.C74_put_back"
   ],
   "note": "C74_reply: the readers on memory agree with those on values (for every splitting of the stream), and where the results lie; C74_call, C74_caller_writes: whole operations, and writes of the caller elsewhere; C74_kept, C74_apart: over any history (Spec.Using); C74_sends, C74_put_back: what is sent; C74_append; C74_layout, C74_append_binary, C74_flags_over_value: the shared array of binary items. Examples: Get, Set of the same item, Get over text; append(item.Flags, 'X') turning hello into Xello over binary."
  },
  {
   "property": "C75",
   "status": "proved",
   "theorems": [
    "Verif.Props.C75_history",
    "Verif.Props.C75_cas",
    "Verif.Props.C75_no_lost_update",
    "Verif.Props.C75_cas_refused",
    "Verif.Props.C75_interop",
    "Verif.Props.C75_multi",
    "Verif.Props.C75_count"
   ],
   "note": "C75_history: every history of any clients equals the abstract one (Spec.runMany); C75_interop; C75_cas, C75_no_lost_update, C75_cas_refused: tokens; C75_multi: GetMulti without tokens; C75_count. Restrictions as in C52: arguments memcached accepts, flags below 2^31 (C18), no meta Touch, meta GetMulti of present keys (C25), no binary call after one that left bytes unread (C55), no binary counting after a store with a token by the same client (C28). Each call is one step of the shared server. Examples: three clients, one of each protocol."
  },
  {
   "property": "C76",
   "status": "proved",
   "theorems": [
    "Verif.Props.C76_prefix",
    "Verif.Props.C76_each",
    "Verif.Props.C76_success",
    "Verif.Props.C76_sticky",
    "Verif.Props.C76_last",
    "Verif.Props.C76_same",
    "Verif.Props.C76_one_write",
    "Verif.Props.C76_large",
    "Verif.Props.C76_large_concrete",
    "Verif.Props.C76_concrete",
    "Verif.Props.C76_panic_concrete",
    "Verif.Props.C76_server_same",
    "Verif.Props.C76_server",
    "Verif.Props.C76_server_concrete"
   ],
   "note": "Put statements of every operation and reply on a bufio.Writer (Go/BufWrite) over a connection with arbitrary Write results. C76_prefix, C76_each, C76_success, C76_sticky, C76_last, C76_same, C76_one_write, C76_large: client; C76_server_same, C76_server: server. Sequential on one connection; reading is on a flat stream (C31). A panic while building a request leaves the bytes written so far in the buffer (C57; Spec.gave says which)."
  },
  {
   "property": "C77",
   "status": "proved",
   "theorems": [
    "Verif.Flow.C77_ends",
    "Verif.Flow.C77_finite",
    "Verif.Flow.C77_fits",
    "Verif.Flow.C77_one",
    "Verif.Flow.C77_all_fit",
    "Verif.Flow.C77_too_much",
    "Verif.Flow.C77_server",
    "Verif.Flow.C77_server_multi",
    "Verif.Flow.C77_concrete_meta",
    "Verif.Flow.C77_concrete_server",
    "Verif.Flow.C77_concrete_get",
    "Verif.Flow.C77_text",
    "Verif.Flow.C77_meta",
    "Verif.Flow.C77_binary",
    "Verif.Flow.C77_meta_multi_fits",
    "Verif.Flow.C77_meta_multi",
    "Verif.Flow.C77_meta_multi_many",
    "Verif.Flow.C77_binary_multi",
    "Verif.Flow.C77_binary_multi_many",
    "Verif.Flow.C77_binary_multi_fits"
   ],
   "note": "Client/Flow: one operation byte by byte over a connection with bounded capacity in each direction and a server that writes the reply to a request before it reads on. C77_ends, C77_finite, C77_fits, C77_one, C77_all_fit, C77_too_much: any server with framed requests; C77_text, C77_meta, C77_binary and the *_multi* theorems: reference memcached; C77_server, C77_server_multi: this repository's server with any handler. No deadlines and no failing connections here (those are in C54, C73, C76). Examples: 140000 keys over meta, 5000 keys over binary and this server with 64 KiB buffers; a text Get over a one-byte connection."
  },
  {
   "property": "C78",
   "status": "proved",
   "theorems": [
    "Verif.Mem.C78_request",
    "Verif.Mem.C78_kept",
    "Verif.Mem.C78_apart",
    "Verif.Mem.C78_stream",
    "Verif.Mem.C78_append",
    "Verif.Mem.C78_forward",
    "Verif.Mem.C78_served",
    "Verif.Mem.C78_concrete"
   ],
   "note": "Server/Memory: the request readers of the server on memory, one array per make, ReadBytes copying out of the buffer. C78_request: the readers on memory agree with those on values for every splitting of the stream, and where Flags and Value lie; C78_kept, C78_apart, C78_stream: any server at work (Spec.Serving: connections accepted and given up, requests read on any of them in any order, anybody making arrays and writing anywhere but into the read buffers of open connections); C78_append, C78_forward: what handlers do with a request; C78_served: every stream of requests leads to such a state. Reading one request is one step. Example: two Sets, the handler overwrites the value of the first."
  },
  {
   "property": "C79",
   "status": "proved",
   "theorems": [
    "Verif.Narrow.C79_refines",
    "Verif.Narrow.C79_finite",
    "Verif.Narrow.C79_stop",
    "Verif.Narrow.C79_always",
    "Verif.Narrow.C79_served",
    "Verif.Narrow.C79_dead",
    "Verif.Narrow.C79_too_much",
    "Verif.Narrow.C79_timeout",
    "Verif.Narrow.C79_for_ever",
    "Verif.Narrow.C79_single",
    "Verif.Narrow.C79_text",
    "Verif.Narrow.C79_meta",
    "Verif.Narrow.C79_binary",
    "Verif.Narrow.C79_meta_multi",
    "Verif.Narrow.C79_binary_multi",
    "Verif.Narrow.C79_run_on",
    "Verif.Narrow.C79_text_return",
    "Verif.Narrow.C79_concrete"
   ],
   "note": "Client/Narrow: the goroutines of Client/Sched on the connection of Client/Flow, byte by byte. C79_refines, C79_finite, C79_run_on, C79_stop, C79_always, C79_served, C79_single: any server with framed requests; C79_text(_return), C79_meta, C79_binary: reference memcached; C79_too_much, C79_timeout, C79_for_ever, C79_dead, C79_meta_multi, C79_binary_multi: the deadlock and what becomes of the others. Binary operations as in C30 (replies read to the end). C79_too_much and the theorems built on it assume that nobody calls Close meanwhile; Reconnect is not in this model (C69, C73)."
  },
  {
   "property": "C80",
   "status": "proved",
   "theorems": [
    "Verif.Served.C80_linear",
    "Verif.Served.C80_return",
    "Verif.Served.C80_narrow",
    "Verif.Served.C80_narrow_results",
    "Verif.Served.C80_multi",
    "Verif.Served.C80_concrete",
    "Verif.Served.C80_concrete_multi",
    "Verif.Served.C80_router",
    "Verif.Served.C80_router_return",
    "Verif.Served.C80_router_concrete"
   ],
   "note": "Client/Sched and Client/Narrow with the output of Server/Serve as the other side. C80_linear, C80_return: unlimited connection; C80_narrow, C80_narrow_results: bounded one; C80_multi: the binary GetMulti that hangs; C80_router, C80_router_return: a router in front of reference memcached servers (C47; the clock stands still). `Willing` (Spec/Served): the handler answers each operation in use, from every state of an invariant, in a way that has a meaning for the client (`Gives`, C16); operations this server does not understand (C12, C19, C64) are therefore excluded. The log shows of a Version only that it succeeded (its text: C16). One connection; several connections with one handler are C56. That the server closes the connection after an error is the step of Client/Sched in which the other side hangs up."
  },
  {
   "property": "C81",
   "status": "proved",
   "theorems": [
    "Verif.Joint.C81_finite",
    "Verif.Joint.C81_run_on",
    "Verif.Joint.C81_linear",
    "Verif.Joint.C81_up",
    "Verif.Joint.C81_return",
    "Verif.Joint.C81_under_way",
    "Verif.Joint.C81_next",
    "Verif.Joint.C81_real_time",
    "Verif.Joint.C81_to_the_end",
    "Verif.Joint.C81_concrete"
   ],
   "note": "Client/Joint: Client/Sched for every client and Server/Accept (one goroutine per connection, `atomically h`: handler calls one at a time) in one state; bytes a client has sent reach the server in pieces at any time and vice versa. C81_linear: one order of all handler calls and what each client's calls return; C81_under_way, C81_next, C81_real_time: where in that order the calls of a client lie, in terms of moments of the run and of the mutex; C81_up: the server never panics; C81_finite, C81_run_on, C81_return, C81_to_the_end: termination and what has happened then. `Courteous`/`Usable` (Spec/Joint): per request, what a usable answer is; operations this server does not understand (C12, C19, C64) are excluded by `Fit`. Connections hold any number of bytes (bounded ones: C79, C80). Reconnect is not in this model (C69, C73): a client has one connection. C81_return assumes that no goroutine of the client has panicked (C35: that takes Close by several goroutines or Close with Timeout on a text client); C81_to_the_end that the client is not closed."
  },
  {
   "property": "C82",
   "status": "proved",
   "theorems": [
    "Verif.Props.C82_text_word",
    "Verif.Props.C82_meta_word",
    "Verif.Props.C82_text_number",
    "Verif.Props.C82_meta_number",
    "Verif.Props.C82_flush",
    "Verif.Props.C82_version",
    "Verif.Props.C82_binary_head",
    "Verif.Props.C82_binary_foreign",
    "Verif.Props.C82_binary_fails",
    "Verif.Props.C82_binary_version",
    "Verif.Props.C82_binary_number",
    "Verif.Props.C82_binary_magic",
    "Verif.Props.C82_text_get_line",
    "Verif.Props.C82_text_get_scan",
    "Verif.Props.C82_text_get_tail",
    "Verif.Props.C82_binary_multi_fails",
    "Verif.Props.C82_meta_get_line"
   ],
   "note": "Spec/Meaning is the table (literal words, status names and error texts). C82_text_word, C82_meta_word, C82_text_number, C82_meta_number, C82_flush, C82_version: replies that are a line of at most 4096 bytes; C82_binary_head, C82_binary_foreign, C82_binary_fails, C82_binary_version, C82_binary_number, C82_binary_magic, C82_binary_multi_fails: binary; C82_text_get_line, C82_text_get_scan, C82_text_get_tail, C82_meta_get_line: errors of Get. Successful retrievals: C70; success of binary Replace and Delete: C20; incomplete replies: C22. Errors inside the blocks of a text or meta GetMulti and inside the head line of a meta value have the texts of the functions that parse them, and are covered only as 'not accepted' (C70) and 'not a panic' (C51). The error values of strconv and fmt are one constructor each."
  },
  {
   "property": "C83",
   "status": "proved",
   "theorems": [
    "Verif.Joint.C83_real_time",
    "Verif.Joint.C83_linear",
    "Verif.Joint.C83_finite",
    "Verif.Joint.C83_run_on",
    "Verif.Joint.C83_return",
    "Verif.Joint.C83_to_the_end",
    "Verif.Joint.C83_concrete",
    "Verif.Joint.C83_concrete_end"
   ],
   "note": "Client/Joint with Proxy/Sched as the handler: between two calls on memcached connections of one ServeRequest anything else may happen. Spec/JointRouter: `played` carries the calls out on one map, `Accounts` compares with what the goroutines saw. C83_linear: one moment; C83_real_time: two moments; C83_finite, C83_run_on, C83_return, C83_to_the_end: termination and what has happened then (deadlines as in C81; a call on a memcached server always gets its reply, C30/C52). Healthy: CAS numbers of the memcached servers stay below 2^63. One call on a memcached connection is one step (C30). The clients' calls are those the router is for (`Use`: Get of meta and binary clients, Set of all; C46-C50 for the rest)."
  },
  {
   "property": "C84",
   "status": "proved",
   "theorems": [
    "Verif.Wired.C84_pool",
    "Verif.Wired.C84_pool_finite",
    "Verif.Wired.C84_pool_no_deadlock",
    "Verif.Wired.C84_pool_run_on",
    "Verif.Wired.C84_pool_concrete",
    "Verif.Wired.C84_refines",
    "Verif.Wired.C84_replica",
    "Verif.Wired.C84_replica_finite",
    "Verif.Wired.C84_replica_no_deadlock",
    "Verif.Wired.C84_replica_run_on",
    "Verif.Wired.C84_finite",
    "Verif.Wired.C84_no_deadlock",
    "Verif.Wired.C84_run_on",
    "Verif.Wired.C84_concrete"
   ],
   "note": "Cluster/Wired: processes, connections (Client/Sched without Close and without deadlines that pass), memcached's end of them, pool methods as programs (Cluster/Sched). Spec/Wired: the same with every call carried out at once (`MomentRun`), replica pools with every method carried out at once (`IdealRun`). C84_refines: any pool methods over text or meta connections whose calls are one command each to which memcached gives a reply the client understands (`NextProper`, to be shown of the simple system only); C84_replica: replica pools; C84_pool: SinglePools over text connections, against one memcached (Spec/WiredPool, as Spec/PoolSched of C67), results alike up to tokens, server names and the order of items; C84_finite, C84_no_deadlock, C84_run_on (and C84_replica_*, C84_pool_*): termination. Not covered: GetMulti of meta connections (several commands; C25, C63), connections that go down (C32, C54, C60), Close (C35), heartbeats (C34, C71). Healthy: CAS numbers stay below 2^63."
  },
  {
   "property": "C85",
   "status": "proved",
   "theorems": [
    "Verif.Wired.C85_refines",
    "Verif.Wired.C85_error_exact",
    "Verif.Wired.C85_found",
    "Verif.Wired.C85_found_concrete",
    "Verif.Wired.C85_pool",
    "Verif.Wired.C85_at_most_once",
    "Verif.Wired.C85_error_broken",
    "Verif.Wired.C85_read_after",
    "Verif.Wired.C85_read_whole",
    "Verif.Wired.C85_read_concrete",
    "Verif.Wired.C85_finite",
    "Verif.Wired.C85_no_deadlock",
    "Verif.Wired.C85_run_on",
    "Verif.Wired.C85_pool_run_on",
    "Verif.Wired.C85_counter",
    "Verif.Wired.C85_lock",
    "Verif.Wired.C85_concrete",
    "Verif.Wired.C85_counter_exact",
    "Verif.Wired.C85_lock_won",
    "Verif.Wired.C85_exact_concrete",
    "Verif.Wired.C85_lock_concrete"
   ],
   "note": "Cluster/Wired (the same system as C84, now with every `hangUp` allowed). Spec/WiredBreak: `ShakyRun` (any pool methods; calls carried out at one moment, lost, failed, or carried out late), `FrailRun` (methods of SinglePool on one key), `GoesOn`. C85_refines: text or meta connections whose calls are one command each to which memcached gives a reply the client understands (`NextFine`, to be shown of the simple system only); C85_pool, C85_at_most_once, C85_error_broken, C85_error_exact (call by call; C85_error_concrete), C85_counter, C85_lock: SinglePools over text connections, one-key methods (`FrailUse`); C85_finite, C85_no_deadlock, C85_run_on, C85_pool_run_on: termination (`GoesOn` leaves out what memcached does with bytes on broken connections: it is not waited for). C85_counter_exact, C85_lock_won: exactness when nobody got a connection error (C85_exact_concrete, C85_lock_concrete: three increments and three Adds while another process's connection is broken). C85_concrete: a run in which one call fails after being carried out and another is carried out after it has returned with an error. Not covered: Reconnect (C86), deadlines (C54), Close (C35), Flush and GetMulti of a SinglePool over broken connections beyond C85_refines. C85_read_after: what a Get can get once a call that changes its key has returned (C85_read_concrete); C85_read_whole: without connection errors while no connection to its server breaks. C85_found: a key that nobody removes is found (C85_found_concrete)."
  },
  {
   "property": "C86",
   "status": "proved",
   "theorems": [
    "Verif.Rewired.C86_finite",
    "Verif.Rewired.C86_no_deadlock",
    "Verif.Rewired.C86_run_on",
    "Verif.Rewired.C86_pool_run_on",
    "Verif.Rewired.C86_pool",
    "Verif.Rewired.C86_at_most_once",
    "Verif.Rewired.C86_counter",
    "Verif.Rewired.C86_lock",
    "Verif.Rewired.C86_refines",
    "Verif.Rewired.C86_error_broken",
    "Verif.Rewired.C86_concrete",
    "Verif.Rewired.C86_error_exact",
    "Verif.Rewired.C86_found",
    "Verif.Rewired.C86_found_concrete",
    "Verif.Rewired.C86_read_after",
    "Verif.Rewired.C86_read_concrete",
    "Verif.Rewired.C86_counter_exact",
    "Verif.Rewired.C86_lock_won",
    "Verif.Rewired.C86_exact_concrete",
    "Verif.Rewired.C86_lock_concrete"
   ],
   "note": "Cluster/Rewired (the system of C84/C85 over the clients of Client/Reconn: every goroutine may call Reconnect; every connection ever dialled has its own end at memcached). Spec/Rewired: `MendedRun` (any pool methods), `PatchedRun` (one-key methods of SinglePool). C86_refines: text or meta connections, under `NextFine` as C85; C86_pool, C86_at_most_once, C86_counter, C86_lock, C86_error_broken, C86_error_exact (call by call; C86_error_concrete): SinglePools over text connections, one-key methods (`PatchedUse`). C86_concrete: an increment fails, Reconnect, the next succeeds with 42, then the request of the first is carried out and the counter is 43. C86_counter_exact, C86_lock_won with C86_exact_concrete, C86_lock_concrete (a connection breaks and is replaced before). C86_finite, C86_no_deadlock, C86_run_on, C86_pool_run_on: termination of methods and Reconnect (`Spec.Rewired.GoesOn` leaves out what memcached does with bytes on connections that are broken or replaced: it is not waited for). Not covered: deadlines (C54), Close (C35). C86_read_after: what a Get can get once a call that changes its key has returned (C86_read_concrete). C86_found: a key that nobody removes is found (C86_found_concrete)."
  },
  {
   "property": "C87",
   "status": "proved",
   "theorems": [
    "Verif.Wired.C87_read_after",
    "Verif.Wired.C87_results",
    "Verif.Wired.C87_pool",
    "Verif.Wired.C87_commands",
    "Verif.Wired.C87_error_broken",
    "Verif.Wired.C87_run_on",
    "Verif.Wired.C87_durable",
    "Verif.Wired.C87_sole_writer",
    "Verif.Wired.C87_found",
    "Verif.Wired.C87_counter",
    "Verif.Wired.C87_lock",
    "Verif.Wired.C87_counter_concrete",
    "Verif.Wired.C87_found_concrete",
    "Verif.Wired.C87_lock_concrete",
    "Verif.Wired.C87_concrete",
    "Verif.Wired.C87_read_concrete"
   ],
   "note": "Cluster/Wired with every `hangUp` allowed and meta connections. Spec/WiredReplica: `TornRun` (methods carried out at one moment by the primary), `LeavesBehind`, `ByCall`, `Answered`. C87_pool: refinement; C87_commands; C87_error_broken; C87_run_on: termination (with C85_finite); C87_durable, C87_sole_writer: what the two servers hold (calls that change the key are Set, Add, Replace without expiration, Delete); C87_read_after: what is read after an acknowledged change (`ReadAfter`, `OneOfThese`), C87_read_concrete: a Set by one process, then a Get by another, while a third has lost its connections; C87_results: results. C87_found: a key that nobody removes is found (`Retains`, `Endures`; C87_found_concrete: a Get, an Increment, a Replace of three processes). C87_counter, C87_lock: counters and locks (C87_counter_concrete: three processes count from 41 to 44, C87_lock_concrete: three add a key, while a fourth has lost a connection; `Likened`: methods of replica pools as calls in no order). C87_concrete: a Set that fails with the primary changed, one with neither changed, which is carried out after it has returned, and two processes going on to the end while a connection to the secondary is broken. Methods: Get, Set, Add, Replace, Delete, Increment, Decrement without cas tokens (GetMulti, Touch and Flush of replica pools: C42-C45, C58, C61). Healthy: CAS numbers stay below 2^63. Not covered: Reconnect (C88), deadlines (C54)."
  },
  {
   "property": "C88",
   "status": "proved",
   "theorems": [
    "Verif.Rewired.C88_pool",
    "Verif.Rewired.C88_commands",
    "Verif.Rewired.C88_error_broken",
    "Verif.Rewired.C88_run_on",
    "Verif.Rewired.C88_durable",
    "Verif.Rewired.C88_sole_writer",
    "Verif.Rewired.C88_read_after",
    "Verif.Rewired.C88_results",
    "Verif.Rewired.C88_concrete",
    "Verif.Rewired.C88_found",
    "Verif.Rewired.C88_counter",
    "Verif.Rewired.C88_lock"
   ],
   "note": "Cluster/Rewired with meta connections. Spec/WiredReplica: `TornRun true` (methods carried out at one moment by the primary, connections broken and mended). RetornUse: the situation. C88_pool: refinement; C88_commands; C88_error_broken: errors between two moments; C88_run_on: termination (with C86_finite); C88_found, C88_counter, C88_lock, C88_durable, C88_sole_writer, C88_read_after, C88_results as for C87. C88_concrete: a Set fails and is not carried out, Reconnect, a second Set returns without an error and both copies have it, then the request of the first is carried out: the primary has the first value, the secondary the second, and another process reads the first. Methods: Get, Set, Add, Replace, Delete, Increment, Decrement without cas tokens. Healthy: CAS numbers stay below 2^63. Not covered: deadlines (C54), Close (C35)."
  }
 ]
}