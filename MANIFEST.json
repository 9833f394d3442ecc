{
 "claims": [
  {
   "property": "C01",
   "status": "proved",
   "theorems": [
    "Verif.C01_client_ignores_grouping",
    "Verif.C01_threads_ignore_grouping",
    "Verif.C01_server_ignores_grouping",
    "Verif.C01_request_parse_ignores_grouping",
    "Verif.C01_response_parse_ignores_grouping",
    "Verif.C01_request_session_ignores_grouping"
   ],
   "note": "every parser state, every input, every buffer size; also whole sequences of calls, all calls of a connection of the client, all calls of threads that share a client, and the handler of a connection of the server"
  },
  {
   "property": "C02",
   "status": "partial",
   "theorems": [
    "Verif.C02_cuts_partial",
    "Verif.C02_plain_partial",
    "Verif.C02_character_false",
    "Verif.C02_headers_false",
    "Verif.C02_body_false",
    "Verif.C02_clean_calls_partial",
    "Verif.C02_clean_calls_response_partial",
    "Verif.C02_pauses_next_partial",
    "Verif.C02_pauses_partial",
    "Verif.C02_pauses_response_partial",
    "Verif.C02_request_received_partial"
   ],
   "note": "False as stated (C02_character_false: a pause inside a multi-byte character of a line; C02_headers_false, C02_body_false: the limits are counted differently when reading pauses). Proved: if no pause cuts a character then one call with all the input either exceeds a limit or has the same outcome and takes as much input; a call that accepts or rejects does so with any such pauses added; every fitting request with a request line and header fields in ASCII is received whatever the pauses, also in bodies that are no text (C02_plain_partial); in general pauses may be wherever the request goes on with the beginning of a character, or could do so, as anywhere in a body or in the data of a chunk (C02_pauses_next_partial, C02_cuts_partial)."
  },
  {
   "property": "C03",
   "status": "partial",
   "theorems": [
    "Verif.C03_ignored_text_false",
    "Verif.C03_lost_bytes_false",
    "Verif.C03_single_call_partial",
    "Verif.C03_resumed_partial",
    "Verif.C03_ascii_partial",
    "Verif.C03_reading_unique"
   ],
   "note": "False as stated: text after the version is ignored (C03_ignored_text_false) and bytes that are not UTF-8 are dropped at a pause (C03_lost_bytes_false). Proved: soundness against the grammar in one call, with pauses up to the dropped bytes, and with pauses for ASCII input."
  },
  {
   "property": "C04",
   "status": "proved",
   "theorems": [
    "Verif.C04_request_accepted",
    "Verif.C04_request_accepted_iff",
    "Verif.C04_response_accepted"
   ],
   "note": "for requests and responses; for requests the limits of one call are exact (iff); chunked bodies included"
  },
  {
   "property": "C05",
   "status": "proved",
   "theorems": [
    "Verif.C05_exact_consumption",
    "Verif.C05_pipelined"
   ],
   "note": ""
  },
  {
   "property": "C06",
   "status": "proved",
   "theorems": [
    "Verif.C06_round_trip",
    "Verif.C06_through_writer",
    "Verif.C06_needed"
   ],
   "note": "Request.Sendable states the conditions; header maps are compared as maps (Equiv), for every permutation of the entries."
  },
  {
   "property": "C07",
   "status": "proved",
   "theorems": [
    "Verif.C07_round_trip",
    "Verif.C07_closed"
   ],
   "note": "Response.Sendable / Response.SendableLast state the conditions."
  },
  {
   "property": "C08",
   "status": "proved",
   "theorems": [
    "Verif.C08_chunked_decodes"
   ],
   "note": ""
  },
  {
   "property": "C09",
   "status": "partial",
   "theorems": [
    "Verif.C09_chunked_sound_partial",
    "Verif.C09_lost_bytes_false",
    "Verif.C09_resumed_partial"
   ],
   "note": "False when reading pauses after bytes that are not UTF-8 (C09_lost_bytes_false). Proved in one call, and with pauses up to the dropped bytes."
  },
  {
   "property": "C10",
   "status": "proved",
   "theorems": [
    "Verif.C10_framing",
    "Verif.C10_framing_unique",
    "Verif.C10_request",
    "Verif.C10_response",
    "Verif.C10_names",
    "Verif.C10_request_refused",
    "Verif.C10_response_refused"
   ],
   "note": "for header maps built from any list of received headers"
  },
  {
   "property": "C11",
   "status": "partial",
   "theorems": [
    "Verif.C11_lost_header_false",
    "Verif.C11_single_call_partial",
    "Verif.C11_ascii_partial"
   ],
   "note": "False when a dropped header carries the framing (C11_lost_header_false). Proved in one call, and with pauses for ASCII input."
  },
  {
   "property": "C12",
   "status": "proved",
   "theorems": [
    "Verif.C12_held_line",
    "Verif.C12_held_line_response",
    "Verif.C12_accepted_lines",
    "Verif.C12_line_accepted",
    "Verif.C12_line_sound"
   ],
   "note": "for requests and responses, any pauses and resumptions"
  },
  {
   "property": "C13",
   "status": "partial",
   "theorems": [
    "Verif.C13_paused_false",
    "Verif.C13_release_unbounded_false",
    "Verif.C13_single_call_partial",
    "Verif.C13_response_partial",
    "Verif.C13_debug_partial"
   ],
   "note": "False with pauses (C13_paused_false), without any bound in release builds (C13_release_unbounded_false). Proved in one call; with pauses in debug builds at most 8704 bytes."
  },
  {
   "property": "C14",
   "status": "partial",
   "theorems": [
    "Verif.C14_chunked_false",
    "Verif.C14_single_call_partial",
    "Verif.C14_response_partial",
    "Verif.C14_length_partial",
    "Verif.C14_debug_partial"
   ],
   "note": "False for chunked bodies with pauses (C14_chunked_false). Proved in one call, for Content-Length with any pauses, and 6 MiB in debug builds for all."
  },
  {
   "property": "C15",
   "status": "partial",
   "theorems": [
    "Verif.C15_single_call_iff",
    "Verif.C15_half_false",
    "Verif.C15_max_false",
    "Verif.C15_pieces_partial"
   ],
   "note": "False: one call accepts exactly lengths up to half of 3 MiB (C15_single_call_iff, C15_half_false) and 3 MiB is never accepted (C15_max_false). Proved for lengths below 3 MiB arriving in small enough pieces."
  },
  {
   "property": "C16",
   "status": "partial",
   "theorems": [
    "Verif.C16_headers_false",
    "Verif.C16_chunks_false",
    "Verif.C16_release_partial",
    "Verif.C16_release_response_partial",
    "Verif.C16_first_call_partial",
    "Verif.C16_first_response_partial",
    "Verif.C16_resumed_partial"
   ],
   "note": "False in debug builds (C16_headers_false, C16_chunks_false). Proved: release builds, first calls, and with pauses only after a limit was exceeded."
  },
  {
   "property": "C17",
   "status": "proved",
   "theorems": [
    "Verif.C17_request_parse_returns",
    "Verif.C17_response_parse_returns"
   ],
   "note": "the loops are bounded by a linear function of the pending input"
  },
  {
   "property": "C18",
   "status": "proved",
   "theorems": [
    "Verif.C18_header_equal_iff_same_text",
    "Verif.C18_header_text_is_lower_case",
    "Verif.C18_header_text_round_trip",
    "Verif.C18_predefined_headers"
   ],
   "note": ""
  },
  {
   "property": "C19",
   "status": "proved",
   "theorems": [
    "Verif.C19_lookup_after_additions",
    "Verif.C19_addition",
    "Verif.C19_first_value",
    "Verif.C19_contains_value"
   ],
   "note": ""
  },
  {
   "property": "C20",
   "status": "proved",
   "theorems": [
    "Verif.C20_request_line",
    "Verif.C20_status_line",
    "Verif.C20_fields_exist_unique",
    "Verif.C20_request_outcome_unique",
    "Verif.C20_status_outcome_unique",
    "Verif.C20_request_refused",
    "Verif.C20_response_refused",
    "Verif.C20_request_not_text",
    "Verif.C20_response_not_text"
   ],
   "note": ""
  },
  {
   "property": "C21",
   "status": "proved",
   "theorems": [
    "Verif.C21_method_text",
    "Verif.C21_method_text_injective",
    "Verif.C21_status_lookup",
    "Verif.C21_status_unknown",
    "Verif.C21_status_table",
    "Verif.C21_reasons",
    "Verif.C21_registered"
   ],
   "note": ""
  },
  {
   "property": "C22",
   "status": "partial",
   "theorems": [
    "Verif.C22_between_partial",
    "Verif.C22_middle_partial",
    "Verif.C22_failed_partial",
    "Verif.C22_one_character_false",
    "Verif.C22_cut_false"
   ],
   "note": "False when only one character of a request has arrived (C22_one_character_false) or a pause cut a character (C22_cut_false): the server closes silently. Proved otherwise, for sockets that report no error; a stream aborted by the peer is always closed silently, which is not part of the claim. C22_failed_partial: one handler invocation sends nothing after an abort and one 400 response after any other failure."
  },
  {
   "property": "C23",
   "status": "proved",
   "theorems": [
    "Verif.C23_first_decides",
    "Verif.C23_registered"
   ],
   "note": "stateful listeners, nested routers"
  },
  {
   "property": "C24",
   "status": "proved",
   "theorems": [
    "Verif.C24_exact"
   ],
   "note": "stateful listeners, nested routers"
  },
  {
   "property": "C25",
   "status": "proved",
   "theorems": [
    "Verif.C25_flat"
   ],
   "note": "arbitrarily deep nesting"
  },
  {
   "property": "C26",
   "status": "proved",
   "theorems": [
    "Verif.C26_strip",
    "Verif.C26_routing_no_panic",
    "Verif.C26_server"
   ],
   "note": "and routing as a whole does not panic unless a listener does; C26_server: the URI of every request the concurrent server asks its router about is text, on every schedule"
  },
  {
   "property": "C27",
   "status": "proved",
   "theorems": [
    "Verif.C27_lookup",
    "Verif.C27_insert",
    "Verif.C27_remove"
   ],
   "note": "all histories of insertions and removals"
  },
  {
   "property": "C28",
   "status": "proved",
   "theorems": [
    "Verif.C28_next_key",
    "Verif.C28_key_bound",
    "Verif.C28_count"
   ],
   "note": "all histories of insertions and removals"
  },
  {
   "property": "C29",
   "status": "proved",
   "theorems": [
    "Verif.C29_dispatch",
    "Verif.C29_listener_token",
    "Verif.C29_no_panic"
   ],
   "note": "token-level claim as stated; see C53 for what happens when a token is reused while its old socket is still registered"
  },
  {
   "property": "C30",
   "status": "partial",
   "theorems": [
    "Verif.C30_server_close_false",
    "Verif.C30_hang_up_partial"
   ],
   "note": "False for connections closed by the server (C30_server_close_false: one entry stays per connection served). Proved for hang-ups by the client."
  },
  {
   "property": "C31",
   "status": "partial",
   "theorems": [
    "Verif.C31_reorder_false",
    "Verif.C31_duplicate_false",
    "Verif.C31_in_order_partial",
    "Verif.C31_response_partial"
   ],
   "note": "False in two ways: a body larger than the buffer can overtake its head (C31_reorder_false), and buffered bytes are sent again after an interruption (C31_duplicate_false). Proved when the socket is not interrupted and either stays full once full during an operation or no single write exceeds the capacity."
  },
  {
   "property": "C32",
   "status": "proved",
   "theorems": [
    "Verif.C32_drains",
    "Verif.C32_blocked",
    "Verif.C32_repeated"
   ],
   "note": ""
  },
  {
   "property": "C33",
   "status": "proved",
   "theorems": [
    "Verif.C33_write_complete",
    "Verif.C33_response_complete",
    "Verif.C33_other_writer_loses"
   ],
   "note": "as multisets of bytes, since order can be lost (C31); also shown that write_response loses data on other writers (C33_other_writer_loses)"
  },
  {
   "property": "C34",
   "status": "partial",
   "theorems": [
    "Verif.C34_plain_partial",
    "Verif.C34_answered_partial",
    "Verif.C34_only_answers_partial",
    "Verif.C34_cut_false",
    "Verif.C34_order_false"
   ],
   "note": "False when a pause cuts a character of a line (C34_cut_false) and, for order, when C31 is (C34_order_false). Proved for pauses that do not and for writers that keep order (pauses anywhere if request lines and header fields are ASCII, C34_plain_partial); for any input, that only answers to requests read, in order, and at most one 400 are sent. Requests beyond what one parse call takes (C13, C14) are outside."
  },
  {
   "property": "C35",
   "status": "partial",
   "theorems": [
    "Verif.C35_cut_false",
    "Verif.C35_refused_partial",
    "Verif.C35_rejected_partial",
    "Verif.C35_first_line"
   ],
   "note": "False if a pause cuts a character of a request before it (C35_cut_false). Proved for pauses that do not cut a character of a line and writers that keep order and report no error. Malformed requests that are found to be so only by their length are covered when they begin in the invocation that finds it."
  },
  {
   "property": "C36",
   "status": "proved",
   "theorems": [
    "Verif.C36_closes",
    "Verif.C36_close_field",
    "Verif.C36_asked_partial",
    "Verif.C36_reasons_partial",
    "Verif.C36_broken_partial"
   ],
   "note": "C36_closes: for any input, any router and anything the socket does, every invocation of the handler goes as described by Invocation, and only so. C36_close_field says which requests ask for the connection to be closed. The _partial theorems say in addition what is sent, for writers that keep order."
  },
  {
   "property": "C37",
   "status": "partial",
   "theorems": [
    "Verif.C37_close_false",
    "Verif.C37_refused_false",
    "Verif.C37_delivered_partial"
   ],
   "note": "False: what the socket does not take at once is dropped with the connection (C37_close_false, C37_refused_false). Proved if the socket is never full during the invocation."
  },
  {
   "property": "C38",
   "status": "partial",
   "theorems": [
    "Verif.C38_spurious_partial",
    "Verif.C38_closed",
    "Verif.C38_panic_false",
    "Verif.C38_limit_false"
   ],
   "note": "False in states in which every event makes the next parse call fail (C38_panic_false, C38_limit_false). Proved in all others."
  },
  {
   "property": "C39",
   "status": "proved",
   "theorems": [
    "Verif.C39_response",
    "Verif.C39_request",
    "Verif.C39_header_order"
   ],
   "note": "for every message and order of iteration"
  },
  {
   "property": "C40",
   "status": "partial",
   "theorems": [
    "Verif.C40_at_most_once",
    "Verif.C40_one_worker",
    "Verif.C40_received_in_order_partial",
    "Verif.C40_started_in_order_partial",
    "Verif.C40_started_order_false",
    "Verif.C40_not_lost",
    "Verif.C40_eventually_run"
   ],
   "note": "All interleavings. Exactly once, one worker, none lost, and every job ends in every fair run. The order of calls is false with several workers: jobs are received in order of submission, but the mutex is released before a job is called (C40_started_order_false); it holds with one worker."
  },
  {
   "property": "C41",
   "status": "proved",
   "theorems": [
    "Verif.C41_waits",
    "Verif.C41_returns"
   ],
   "note": "All interleavings; return under weak fairness of workers and owner if no job panics. If a job panicked, drop panics instead of returning (C41_waits)."
  },
  {
   "property": "C42",
   "status": "partial",
   "theorems": [
    "Verif.C42_fewer_panics_partial",
    "Verif.C42_panics_false",
    "Verif.C42_lost_false"
   ],
   "note": "False for every number of workers: as many panicking jobs as workers disable the pool, and execute panics then (C42_panics_false); queued jobs are lost (C42_lost_false). Holds for fewer panics than workers."
  },
  {
   "property": "C43",
   "status": "proved",
   "theorems": [
    "Verif.C43_exclusive",
    "Verif.C43_asks",
    "Verif.C43_serial",
    "Verif.C43_serial_pure"
   ],
   "note": "Whole-server transition system with every schedule of accepts, arrivals, readiness events, dispatches and worker steps: a connection is used by one worker at a time, the router is asked one request after another, and each connection behaves as if its handlers ran one after the other on the input."
  },
  {
   "property": "C44",
   "status": "partial",
   "theorems": [
    "Verif.C44_busy_false",
    "Verif.C44_no_lost_wakeup_partial",
    "Verif.C44_eventually_partial",
    "Verif.C44_panics_false",
    "Verif.C44_returns_partial",
    "Verif.C44_settles_partial"
   ],
   "note": "No event is lost and everything that arrives is eventually looked at, provided fewer handlers panicked than there are workers and handlers return; that handlers return is proved when no client sends without end (C44_returns_partial, C44_settles_partial). When a client sends without end it is false: with one worker that client keeps everybody else waiting for ever (C44_busy_false). When every worker ended by a panic it is false (C44_panics_false)."
  },
  {
   "property": "C45",
   "status": "proved",
   "theorems": [
    "Verif.C45_at_most_twice",
    "Verif.C45_once",
    "Verif.C45_once_opened",
    "Verif.C45_sent",
    "Verif.C45_tcp"
   ],
   "note": "any stream factory; for plain TCP at most four calls of connect (C45_tcp). Streams are compared by all bytes given to them, held or sent."
  },
  {
   "property": "C46",
   "status": "partial",
   "theorems": [
    "Verif.C46_history_partial",
    "Verif.C46_streams_partial",
    "Verif.C46_late_false",
    "Verif.C46_reconnect_false",
    "Verif.C46_calls_partial",
    "Verif.C46_calls_streams_partial",
    "Verif.C46_calls_sent_partial",
    "Verif.C46_garbled_false"
   ],
   "note": "False: after a time-out the late response to the first request is returned for the next (C46_late_false, C46_reconnect_false); after a request that could not be written whole, the next one is sent as its body (C46_garbled_false). Holds for every call, however the others ended, that returns a response from a stream on which no call has failed before (C46_calls_partial, C46_calls_streams_partial); so in every history in which all calls succeeded or failed leaving no stream (C46_history_partial, C46_streams_partial). What is sent on a stream is a beginning of the requests given to it, unless a call was made on it after one that could not write its request whole (C46_calls_sent_partial)."
  },
  {
   "property": "C47",
   "status": "partial",
   "theorems": [
    "Verif.C47_exclusive",
    "Verif.C47_in_flight",
    "Verif.C47_serial",
    "Verif.C47_available",
    "Verif.C47_looks_on",
    "Verif.C47_scan_partial",
    "Verif.C47_starved_false",
    "Verif.C47_poisoned_false"
   ],
   "note": "Exclusive use, at most num_connections in flight and serial use of each connection hold in all interleavings. That a call never waits while a connection is free is false: it can be starved by other threads although some connection is always free (C47_starved_false), and a panic in send poisons the mutex for ever (C47_poisoned_false). It holds while one connection stays free: at most n+1 looks."
  },
  {
   "property": "C48",
   "status": "proved",
   "theorems": [
    "Verif.C48_attempt",
    "Verif.C48_connecting",
    "Verif.C48_other",
    "Verif.C48_success",
    "Verif.C48_returns",
    "Verif.C48_answered"
   ],
   "note": "any stream factory; the errors of an attempt are related to what writing and parsing did on the stream."
  },
  {
   "property": "C49",
   "status": "proved",
   "theorems": [
    "Verif.C49_described",
    "Verif.C49_status",
    "Verif.C49_body"
   ],
   "note": "Response.ofStatus for every status of the table, Response.ofBody for every body of at most half of 3 MiB."
  },
  {
   "property": "C50",
   "status": "partial",
   "theorems": [
    "Verif.C50_unrouted_false",
    "Verif.C50_closed_partial"
   ],
   "note": "False: the fixed 404 response has no Content-Length and the connection stays open (C50_unrouted_false, for all routers and requests). Holds when the request asks for the connection to be closed."
  },
  {
   "property": "C51",
   "status": "partial",
   "theorems": [
    "Verif.C51_plain_partial",
    "Verif.C51_sibling_false",
    "Verif.C51_traversal_false"
   ],
   "note": "False as stated: `..` in a URI leaves the directory (C51_traversal_false, end to end through the server with the router of main), and a directory given without a final slash exposes its siblings (C51_sibling_false). Proved for URIs without `..` and directories with a final slash; no symbolic links in the model."
  },
  {
   "property": "C52",
   "status": "partial",
   "theorems": [
    "Verif.C52_content_type",
    "Verif.C52_stable_partial",
    "Verif.C52_one_worker_partial",
    "Verif.C52_listener",
    "Verif.C52_race_false"
   ],
   "note": "False with several workers: a worker that read an old version can overwrite the cached new one (C52_race_false). Proved: content types; stability once cached and nobody is filling in the same path; full stability with one worker."
  },
  {
   "property": "C53",
   "status": "partial",
   "theorems": [
    "Verif.C53_stale_token_false",
    "Verif.C53_stale_ready_false",
    "Verif.C53_prompt_partial"
   ],
   "note": "False when a worker still holds a connection dropped from the table (C53_stale_token_false, C53_stale_ready_false). Proved if its socket is closed at once."
  },
  {
   "property": "C54",
   "status": "proved",
   "theorems": [
    "Verif.C54_client_in_order"
   ],
   "note": "every behaviour of the stream, including interruption and partial writes"
  },
  {
   "property": "C55",
   "status": "partial",
   "theorems": [
    "Verif.C55_one_request_false",
    "Verif.C55_blame_partial",
    "Verif.C55_release_partial",
    "Verif.C55_remote_false",
    "Verif.C55_outage_false"
   ],
   "note": "False as stated: one panicking request can end several workers because the poisoned mutex makes later handlers of the connection panic (C55_one_request_false; C55_outage_false: all workers, however many, and then the event loop, for any router that panics on some request), and in debug builds a client can end a worker without any listener panicking (C55_remote_false). Proved: every worker that ended was handling a connection on which a listener panicked (or a parser did, in debug builds only); in release builds with listeners that do not panic no worker ever ends."
  },
  {
   "property": "C56",
   "status": "partial",
   "theorems": [
    "Verif.C56_created_later_false"
   ],
   "note": "False: 404 answers are cached forever (C56_created_later_false)."
  },
  {
   "property": "C57",
   "status": "partial",
   "theorems": [
    "Verif.C57_conversation_partial"
   ],
   "note": "C57_conversation_partial: on one connection, for requests and responses that can be sent, cuts that do not split a character of a line, and parts that fit the buffer of the server; other cuts are refuted by C09, other responses by C03."
  },
  {
   "property": "C58",
   "status": "partial",
   "theorems": [
    "Verif.C58_server_halves",
    "Verif.C58_client_halves",
    "Verif.C58_server_reads",
    "Verif.C58_server_writes_partial",
    "Verif.C58_client_any"
   ],
   "note": "Proved for reading and for the client (C58_server_reads, C58_client_any) and, over independent directions, that the halves can be treated apart (C58_server_halves, C58_client_halves). For the server's writing side only for pieces of at most 4096 bytes while nothing fails (C58_server_writes_partial); larger pieces are refuted by C31."
  },
  {
   "property": "C59",
   "status": "partial",
   "theorems": [
    "Verif.C59_handled_partial",
    "Verif.C59_stuck_false"
   ],
   "note": "False: listen_until_blocked loops as long as accept fails with anything but WouldBlock, e.g. when there are no file descriptors left (C59_stuck_false). Proved when accept reports WouldBlock at some time (C59_handled_partial)."
  },
  {
   "property": "C60",
   "status": "partial",
   "theorems": [
    "Verif.C60_server_partial",
    "Verif.C60_end_to_end_partial"
   ],
   "note": "C60_server_partial (any schedule, any listeners' state, panics included) and C60_end_to_end_partial (client histories over such servers, answers may depend on the listeners' state). Missing: texts cut inside a character (false, C34/C55 witnesses), sockets that become free in the middle of an answer with parts larger than the buffer (false, C30), client histories with failed sends on an open stream (false, C46); that answers arrive at all is C44/C57."
  },
  {
   "property": "C61",
   "status": "partial",
   "theorems": [
    "Verif.C61_site",
    "Verif.C61_alive",
    "Verif.C61_workers",
    "Verif.C61_client_partial"
   ],
   "note": "C61_site, C61_alive (without overflow checks), C61_workers proved in full; C61_client_partial has the conditions of C60_end_to_end_partial, files of at most one and a half megabytes and URIs that begin with a slash."
  },
  {
   "property": "C62",
   "status": "partial",
   "theorems": [
    "Verif.C62_idle_partial",
    "Verif.C62_answered_partial",
    "Verif.C62_sent_partial"
   ],
   "note": "Proved on every fair infinite schedule for clients that send whole valid requests without asking to close and do not close; the socket reports no error, does not become free in the middle of an answer with parts of more than 4096 bytes, and listeners do not panic. C62_sent_partial also needs that the socket takes what there is to send."
  },
  {
   "property": "C63",
   "status": "partial",
   "theorems": [
    "Verif.C63_plain_partial",
    "Verif.C63_sound_partial",
    "Verif.C63_both_false",
    "Verif.C63_sign_false",
    "Verif.C63_name_false",
    "Verif.C63_lengths_false",
    "Verif.C63_case_false",
    "Verif.C63_coding_false",
    "Verif.C63_refused_false"
   ],
   "note": "False as stated: C63_both_false (Transfer-Encoding with Content-Length: request smuggling), C63_lengths_false, C63_name_false, C63_sign_false, C63_case_false, C63_coding_false, C63_refused_false. C63_plain_partial: requests in the plainest form are read as the RFC says. C63_sound_partial: whatever is accepted is what the RFC says unless the text has one of the listed deviations."
  },
  {
   "property": "C64",
   "status": "partial",
   "theorems": [
    "Verif.C64_request_partial",
    "Verif.C64_request_paused_partial",
    "Verif.C64_response_partial",
    "Verif.C64_received",
    "Verif.C64_reflected_partial",
    "Verif.C64_value_false",
    "Verif.C64_target_false",
    "Verif.C64_body_false",
    "Verif.C64_name_false",
    "Verif.C64_response_false"
   ],
   "note": "False as stated: C64_value_false, C64_target_false, C64_body_false, C64_name_false, C64_response_false. C64_request_partial, C64_response_partial (and with pauses, for ASCII, C64_request_paused_partial) hold for contained messages; C64_received and C64_reflected_partial show that reflecting received values is harmless."
  },
  {
   "property": "C65",
   "status": "partial",
   "theorems": [
    "Verif.C65_plain_partial",
    "Verif.C65_sound_partial",
    "Verif.C65_no_content_false",
    "Verif.C65_not_modified_false",
    "Verif.C65_refused_false",
    "Verif.C65_both_false",
    "Verif.C65_case_false"
   ],
   "note": "False as stated: C65_no_content_false (204), C65_not_modified_false (304 with Content-Length), C65_refused_false (1xx, unknown codes), C65_both_false, C65_case_false. C65_plain_partial: responses in the plainest form are read as the RFC says. C65_sound_partial: whatever is accepted is what the RFC says unless the text has one of the listed deviations."
  },
  {
   "property": "C66",
   "status": "partial",
   "theorems": [
    "Verif.C66_kept_partial",
    "Verif.C66_output_false",
    "Verif.C66_sent_kept_false",
    "Verif.C66_announced_false"
   ],
   "note": "False as stated: C66_output_false (a client that never reads), C66_sent_kept_false (a client that stays one byte behind: flush_buf clears the buffer only when all of it was sent), C66_announced_false (43 bytes make the server allocate nearly 3 MiB). C66_kept_partial: bounds in terms of what was received and answered, by an invariant of every connection in every reachable state."
  },
  {
   "property": "C67",
   "status": "partial",
   "theorems": [
    "Verif.C67_streams",
    "Verif.C67_no_early_data",
    "Verif.C67_script_partial",
    "Verif.C67_client",
    "Verif.C67_server_partial",
    "Verif.C67_drop",
    "Verif.C67_drop_lost_false",
    "Verif.C67_truncated_false",
    "Verif.C67_closed_false"
   ],
   "note": "C67_streams, C67_no_early_data, C67_drop, C67_client, C67_server_partial, C67_script_partial. False parts: C67_drop_lost_false (write reports success when the record is only queued; drop flushes once without waiting), C67_truncated_false (an end of the TCP stream without close_notify ends a response without length), C67_closed_false (a close_notify makes reading fail with ConnectionAborted; the client sends the request again and fails). rustls 0.18 is modelled as its documentation says; its cryptography is any function."
  },
  {
   "property": "C68",
   "status": "partial",
   "theorems": [
    "Verif.C68_tls_roomy_partial",
    "Verif.C68_tls_conversation_partial",
    "Verif.C68_conversation_partial",
    "Verif.C68_unrouted_false"
   ],
   "note": "C68_conversation_partial: under the conditions of C62 and for routers that answer each request with a response that can be sent; by induction on the number of requests, with C62 for those that have come. C68_unrouted_false: unrouted requests make the client wait for ever. C68_tls_conversation_partial: over TLS, for an orderly client, requests that may be cut anywhere (AnyCut: those with request line and fields in ASCII, with any body), responses in parts of at most 4096 bytes (of any length if the socket always takes more), and a server that has nothing left to send whenever no handler uses the connection (HttpsRun.Sent); C68_tls_roomy_partial: the same if the socket never fails and always takes more."
  },
  {
   "property": "C69",
   "status": "partial",
   "theorems": [
    "Verif.C69_occupied_false",
    "Verif.C69_events_partial"
   ],
   "note": "False (C69_occupied_false): for any number of workers, while the listeners are busy with one request of one client, all other workers can be blocked at the mutex of the same connection (Net.Blocked.stuck: they can do nothing), with the request of another client waiting in the queue of the pool. Proved (C69_events_partial): each of them is there because of its own event, and at most one has the mutex."
  },
  {
   "property": "C70",
   "status": "partial",
   "theorems": [
    "Verif.C70_at_most_twice_partial",
    "Verif.C70_at_least_once_partial",
    "Verif.C70_twice_false"
   ],
   "note": "False (C70_twice_false): the client repeats a request after any error, also when it was already carried out and whatever its method; a POST request is carried out twice by the server for one call of send. Proved, under the conditions of C60: at least once (C70_at_least_once_partial) and at most twice (C70_at_most_twice_partial) for each response returned, counted for each request over all streams of a history."
  },
  {
   "property": "C71",
   "status": "partial",
   "theorems": [
    "Verif.C71_server",
    "Verif.C71_only_answers_partial",
    "Verif.C71_client",
    "Verif.C71_tls_server_partial",
    "Verif.C71_tls_client",
    "Verif.C71_spurious_end_false",
    "Verif.C71_no_spurious_end",
    "Verif.C71_cut_off_false"
   ],
   "note": "Proved for every stream that keeps the contract of Read and Write: the handler and send_request do over it exactly what they do over some scripted stream in two parts (C71_server, C71_client), so what is proved of all scripts carries over; carried over here: C71_only_answers_partial, C71_tls_server_partial (responses in parts of at most 4096 bytes, no interrupted writes) and C71_tls_client. False is the last part: after a message that the session answers without passing plain text on (a request to renegotiate), read reports the end of the stream; the server drops the connection (C71_spurious_end_false) and the client returns a cut-off response as whole (C71_cut_off_false)."
  },
  {
   "property": "C72",
   "status": "partial",
   "theorems": [
    "Verif.C72_request_partial",
    "Verif.C72_response_partial",
    "Verif.C72_server_partial",
    "Verif.C72_body_false",
    "Verif.C72_resend_false"
   ],
   "note": "Proved unless an interruption falls within a part of known length (a Content-Length body or the data of a chunk): C72_request_partial, C72_response_partial, C72_server_partial. False there: BytesDeframer does not retry; the server answers 400 and closes (C72_body_false), the client writes the request again on another stream (C72_resend_false)."
  },
  {
   "property": "C73",
   "status": "partial",
   "theorems": [
    "Verif.C73_start",
    "Verif.C73_serves_partial",
    "Verif.C73_no_return",
    "Verif.C73_finished",
    "Verif.C73_answered_partial",
    "Verif.C73_panicked_false",
    "Verif.C73_returns",
    "Verif.C73_interrupted_false",
    "Verif.C73_panics_false"
   ],
   "note": "Proved: how it starts (C73_start), that it serves while poll reports no error (C73_serves_partial), that after an error there is no way back (C73_no_return), that it returns if no handler panics (C73_returns), and what holds then (C73_finished, C73_answered_partial: responses in parts of at most N bytes, connections the server had not closed). False: one interrupted poll ends the server with requests unanswered (C73_interrupted_false), and after any handler has panicked the error is not returned, listen_http panics instead while handlers still run (C73_panicked_false, C73_panics_false)."
  },
  {
   "property": "C74",
   "status": "partial",
   "theorems": [
    "Verif.C74_keeps_partial",
    "Verif.C74_closes_partial",
    "Verif.C74_close_false",
    "Verif.C74_old_false",
    "Verif.C74_client_false"
   ],
   "note": "Proved: the server never closes a connection that should persist (C74_keeps_partial), and closes one that should not if the request is HTTP/1.1 and its options are one per field in lower case (C74_closes_partial). False: `Connection: Close` and `close, te` leave it open (C74_close_false); so does HTTP/1.0 without keep-alive (C74_old_false); the client goes on to use a connection that the server said it would close (C74_client_false)."
  },
  {
   "property": "C75",
   "status": "partial",
   "theorems": [
    "Verif.C75_http",
    "Verif.C75_https",
    "Verif.C75_name",
    "Verif.C75_address_false",
    "Verif.C75_timeout_false"
   ],
   "note": "Proved: exactly which configurations are accepted (C75_http, C75_https, with host names given by a grammar), and that every session asks for the name before the first colon (C75_name). False: new_https panics for every IPv4 and IPv6 address (C75_address_false); a zero timeout is accepted and makes every send panic (C75_timeout_false). The check of host names is that of webpki 0.21 from memory of its sources."
  },
  {
   "property": "C76",
   "status": "partial",
   "theorems": [
    "Verif.C76_client",
    "Verif.C76_right_partial",
    "Verif.C76_sent_partial",
    "Verif.C76_at_most_twice",
    "Verif.C76_tls",
    "Verif.C76_close_notify",
    "Verif.C76_twice_false",
    "Verif.C76_calls_partial",
    "Verif.C76_calls_sent_partial",
    "Verif.C76_handshake_false"
   ],
   "note": "Proved: the calls of send over any streams end as over scripted ones, stream by stream (C76_client); right answers and texts sent as long as all calls returned a response (C76_right_partial, C76_sent_partial: after a failed call see C46_late_false); right answers for every call that returns a response from a stream on which no call has failed before, however the others ended (C76_calls_partial), and what is sent is a beginning of the requests given to the stream unless a call was made on it after one that could not write its request whole (C76_calls_sent_partial); at most two streams per call (C76_at_most_twice); every stream of an HTTPS client is a TLS session with one of the servers that were reached (C76_tls). On every stream it gave up it sealed exactly one close_notify, after all it wrote, and none on the stream it uses (C76_close_notify). False: over TLS a request is sent twice although nothing was lost or late, when the server asks the session for an answer first (C76_twice_false). Also false: after a slow handshake a request whose call failed with an error of writing is sent by the next call, which returns its response (C76_handshake_false)."
  },
  {
   "property": "C77",
   "status": "partial",
   "theorems": [
    "Verif.C77_waits",
    "Verif.C77_mild",
    "Verif.C77_answered_partial",
    "Verif.C77_tls_waits",
    "Verif.C77_tls_answered_partial",
    "Verif.C77_tls_blocked_false"
   ],
   "note": "Proved over any raw stream: the last thing done was a read that said WouldBlock, and the buffer is empty (C77_waits); no other failure and no end was read before (C77_mild). Over TLS: C77_tls_waits. The requests that came whole were answered, for responses in parts of at most 4096 bytes, streams that are never interrupted and cuts at which read_line loses nothing (C77_answered_partial, C77_tls_answered_partial). False: over TLS a request that has come is not read while the session cannot send (C77_tls_blocked_false)."
  },
  {
   "property": "C78",
   "status": "partial",
   "theorems": [
    "Verif.C78_any",
    "Verif.C78_exclusive",
    "Verif.C78_asks",
    "Verif.C78_blame_partial",
    "Verif.C78_release_partial",
    "Verif.C78_kept_partial",
    "Verif.C78_waits",
    "Verif.C78_served_partial",
    "Verif.C78_answered_partial",
    "Verif.C78_tls",
    "Verif.C78_close_notify",
    "Verif.C78_tls_served_partial",
    "Verif.C78_tls_waits",
    "Verif.C78_tls_answered_partial",
    "Verif.C78_tls_open_partial"
   ],
   "note": "Proved over streams of any kind: simulation by the scripted server (C78_any), exclusive use (C78_exclusive), one order of asking (C78_asks), the buffers of a kept and free connection are empty and its last read said WouldBlock (C78_waits). As partial as their counterparts: who ends workers (C78_blame_partial, C78_release_partial), memory (C78_kept_partial). For responses in parts of at most 4096 bytes (over TLS of any length, if the peer is orderly and the socket always takes more: HttpsAct.Fits) and streams that are never interrupted: C78_served_partial, C78_answered_partial. Over TLS, per connection and against what arrived at its own socket, whatever the other sockets do: C78_tls, C78_tls_waits, C78_tls_served_partial, C78_tls_answered_partial, and C78_tls_open_partial: the server does not close a connection whose client is orderly (requests that may be cut anywhere, AnyCut). A connection that is not put back has sealed exactly one close_notify, after everything written; one that is kept has sealed none: C78_close_notify."
  },
  {
   "property": "C79",
   "status": "partial",
   "theorems": [
    "Verif.C79_idle_partial",
    "Verif.C79_eventually_partial",
    "Verif.C79_any_partial",
    "Verif.C79_tls_idle_partial",
    "Verif.C79_tls_eventually_partial",
    "Verif.C79_server_partial",
    "Verif.C79_tls_server_partial",
    "Verif.C79_tests_partial",
    "Verif.C79_tls_tests_partial",
    "Verif.C79_one_call",
    "Verif.C79_endless_refused",
    "Verif.C79_unfinished",
    "Verif.C79_cut_off_partial",
    "Verif.C79_garbage_false",
    "Verif.C79_slow_line_partial",
    "Verif.C79_release_false",
    "Verif.C79_slow_bounded_partial",
    "Verif.C79_chunks_release_false",
    "Verif.C79_chunks_debug_false",
    "Verif.C79_lines_release_false",
    "Verif.C79_lines_debug_false",
    "Verif.C79_any_chunks_release_false",
    "Verif.C79_any_chunks_debug_false"
   ],
   "note": "False as stated: with pauses a client can go on for ever with bytes that are not UTF-8, and in release builds with header lines once the limit of the section has wrapped around; the text of infinite_chunked_body one byte at a time is never refused in release builds (C79_chunks_release_false) and ends in a panic with overflow checks (C79_chunks_debug_false). Proved for what comes in one invocation of the handler (any text), for a first line with any pauses, and a bound of about 3 GB for ASCII text with any pauses in builds with overflow checks. For the whole server, plain (`C79_server_partial`) and over TLS (`C79_tls_server_partial`): a client that sends requests and then 512 ASCII characters without the end of a line gets the answers and one 400 response, and the connection is closed for good, on every schedule; so does one that sends a header line again and again whose length is a divisor of 4096 or 4095 (of any other length: never refused if sent one byte at a time in release builds, C79_lines_release_false, and a panic with overflow checks, C79_lines_debug_false), or, in a chunked body, a chunk again and again whose size is a divisor of 3 MiB or one less (of any other size: C79_any_chunks_release_false, C79_any_chunks_debug_false). `C79_tests_partial`, `C79_tls_tests_partial`: the texts of the integration tests, except infinite_chunked_body, on every schedule, plain and over TLS. For all ASCII texts (C79_idle_partial, C79_eventually_partial, C79_any_partial over any streams, C79_tls_idle_partial, C79_tls_eventually_partial): a connection that stays open has got, besides the requests that listeners were asked about, at most 512 bytes without the end of a line, and with overflow checks at most 9216 bytes of an unfinished header section and about 3 GB in all; that the client then gets a 400 response is not part of these, since the handler may have panicked."
  },
  {
   "property": "C80",
   "status": "partial",
   "theorems": [
    "Verif.C80_tls_roomy",
    "Verif.C80_tls_drained_partial",
    "Verif.C80_tls_sent_partial",
    "Verif.C80_looked",
    "Verif.C80_tls_answered_partial",
    "Verif.C80_tls_served_partial"
   ],
   "note": "Reading until WouldBlock is proved for all streams and schedules that are fair (C80_looked). The answers over TLS are proved for a client that has sent everything, a session that has nothing left to send when no handler runs, requests that may be cut anywhere (AnyCut: those with request line and fields in ASCII, with any body), responses in parts of at most 4096 bytes (of any length if the socket always takes more) and a socket of this connection that is never interrupted (C80_tls_answered_partial, where the connection may also be closed instead). C80_tls_served_partial: if the client is orderly and stays, and the listeners do not panic, the connection is not closed. C80_tls_roomy, C80_tls_drained_partial, C80_tls_sent_partial: if the socket never fails and always takes more, the session has nothing left to send when no handler runs, and nothing is left in the writer."
  },
  {
   "property": "C81",
   "status": "proved",
   "theorems": [
    "Verif.C81_made",
    "Verif.C81_count",
    "Verif.C81_any",
    "Verif.C81_tls",
    "Verif.C81_not_tls",
    "Verif.C81_prefix_false"
   ],
   "note": "Also proved: C81_prefix_false, that bytes that are not UTF-8 may be left out of a request at a pause, so the texts are a subsequence of what was sent, and a prefix of it when all of it is ASCII."
  },
  {
   "property": "C82",
   "status": "partial",
   "theorems": [
    "Verif.C82_tls_tests_partial",
    "Verif.C82_tests_partial"
   ],
   "note": "Conditions: what arrives is not cut inside a character of a line, the socket has no errors and is not freed in the middle of an answer that has parts of more than 4096 bytes, not all workers have panicked, no request asks to close. Over TLS: requests that may be cut anywhere, responses that a client of the library can read, an orderly peer, a socket that always takes more."
  },
  {
   "property": "C83",
   "status": "partial",
   "theorems": [
    "Verif.C83_calls_any_partial",
    "Verif.C83_calls_tls_partial",
    "Verif.C83_any_partial",
    "Verif.C83_tls_partial"
   ],
   "note": "as long as every call of send returned a response (C83_any_partial, C83_tls_partial) or, however the calls end, for those on each stream until the first that failed on it, unless a call was made on it after one that could not write its request whole (C83_calls_any_partial, C83_calls_tls_partial; otherwise see C46_late_false, C46_garbled_false); the server has not read the end of the connection; for requests and responses that can be sent, responses in parts of at most 4096 bytes (over TLS of any length, if the socket of the server always takes more) and, over TLS, requests that may be cut anywhere (AnyCut: those with request line and fields in ASCII, with any body); that what one session delivers is a beginning of what the other has sealed is the guarantee of TLS and a hypothesis"
  },
  {
   "property": "C84",
   "status": "partial",
   "theorems": [
    "Verif.C84_exclusive",
    "Verif.C84_in_flight",
    "Verif.C84_serial",
    "Verif.C84_right_partial",
    "Verif.C84_calls_partial",
    "Verif.C84_any_partial",
    "Verif.C84_tls",
    "Verif.C84_tls_partial",
    "Verif.C84_calls_any_partial",
    "Verif.C84_calls_tls_partial",
    "Verif.C84_scan_partial",
    "Verif.C84_looks_on",
    "Verif.C84_available",
    "Verif.C84_starved_false",
    "Verif.C84_poisoned_false"
   ],
   "note": "Proved in full: C84_exclusive, C84_in_flight, C84_serial, C84_tls. C84_calls_partial: right answers for every call that returns a response from a stream on which no call has failed before (otherwise see C46_late_false). C84_right_partial, C84_any_partial, C84_tls_partial: as long as every call on the connection returned a response, and with the conditions of C83. C84_calls_any_partial, C84_calls_tls_partial: the same however the calls end, for those on each stream until the first that failed on it. Progress: C84_available (a connection can be taken exactly if no call is using it and none on it ended in a panic), C84_looks_on (a call does nothing but look at one connection after the other until it has one), C84_scan_partial (at most n+1 looks while one connection stays free). That a call gets on while some connection is free is false as for C47: C84_starved_false, C84_poisoned_false."
  },
  {
   "property": "C85",
   "status": "partial",
   "theorems": [
    "Verif.C85_asked_partial",
    "Verif.C85_refused_partial",
    "Verif.C85_ended_partial",
    "Verif.C85_hangup_partial",
    "Verif.C85_any",
    "Verif.C85_any_ended",
    "Verif.C85_any_hangup_partial",
    "Verif.C85_let_go",
    "Verif.C85_tls",
    "Verif.C85_tls_let_go",
    "Verif.C85_tls_ended_partial",
    "Verif.C85_tls_asked_partial",
    "Verif.C85_tls_refused_partial",
    "Verif.C85_tls_emptied_partial",
    "Verif.C85_tls_ended_roomy_partial",
    "Verif.C85_tls_asked_sent_partial",
    "Verif.C85_tls_refused_sent_partial"
   ],
   "note": "For fewer panics than workers. The first two cases on plain sockets for pieces that end where nothing is lost (Pieces: no character of a line is cut) and a socket that reports no errors and does not become free in the middle of an answer with parts of more than 4096 bytes; over TLS for orderly peers, texts that may be cut anywhere (AnyCut), answers in parts of at most 4096 bytes (of any length if the socket always takes more), and sessions that have sent everything whenever no handler uses the connection. Over TLS the end of the stream for such sessions too. C85_tls_ended_roomy_partial, C85_tls_asked_sent_partial, C85_tls_refused_sent_partial: the same with sockets that never fail and always take more, instead of the condition on the sessions; then also all is sent."
  },
  {
   "property": "C86",
   "status": "proved",
   "theorems": [
    "Verif.C86_cut_off",
    "Verif.C86_reads",
    "Verif.C86_holds",
    "Verif.C86_shared"
   ],
   "note": "C86_reads (any streams, calls one after the other), C86_holds (what a connection holds between calls), C86_shared (both for threads that share a client), C86_cut_off (a server that sends without end)."
  },
  {
   "property": "C87",
   "status": "partial",
   "theorems": [
    "Verif.C87_queue_false",
    "Verif.C87_reasons_partial",
    "Verif.C87_any_reasons_partial",
    "Verif.C87_any_queue_false"
   ],
   "note": "False as stated: C87_queue_false (any number of jobs for one connection while its first request is with the listeners, for any number of workers), and over streams of any kind, so also over TLS, C87_any_queue_false. In part: C87_reasons_partial, C87_any_reasons_partial."
  },
  {
   "property": "C88",
   "status": "partial",
   "theorems": [
    "Verif.C88_same_partial",
    "Verif.C88_others_partial",
    "Verif.C88_idle_partial",
    "Verif.C88_any_same_partial",
    "Verif.C88_tls_same_partial",
    "Verif.C88_eventually_partial",
    "Verif.C88_closed_partial",
    "Verif.C88_refused_partial",
    "Verif.C88_timing_false",
    "Verif.C88_profile_false"
   ],
   "note": "False as stated: C88_timing_false (the same bytes are answered with 404 or 400, depending on when a worker looks), C88_profile_false (the same bytes on the same schedule are answered in release builds and cost the worker in debug builds). In part: C88_same_partial, C88_others_partial, C88_idle_partial (requests within the limits, cut at characters, responses in parts that fit into the buffer or a socket that does not become free in the middle of an answer), C88_tls_same_partial (over TLS, requests that may be cut anywhere), C88_any_same_partial (one text for streams of all kinds), C88_eventually_partial (all of it is sent in the end), C88_closed_partial and C88_refused_partial (also to clients that ask for the end, or send something that is no request, until the connection is closed)."
  },
  {
   "property": "C89",
   "status": "proved",
   "theorems": [
    "Verif.C89_delivered",
    "Verif.C89_reached",
    "Verif.C89_not_before",
    "Verif.C89_below",
    "Verif.C89_read_to_end",
    "Verif.C89_read_until",
    "Verif.C89_read_bytes"
   ],
   "note": "C89_delivered, C89_reached, C89_not_before (if the stream itself has no such error), C89_below; C89_read_to_end, C89_read_until and C89_read_bytes for the loops over a limited reader. Destinations of reads are not empty, and consume is called with at most what fill_buf returned, as BufRead asks."
  }
 ]
}
