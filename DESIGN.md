# Formal model of funkiben/Rust-HTTP in Lean 4

The code of `/repo` is read as text; nothing is compiled or run. This file says what is
modelled and how, how each property of `properties.jsonl` is proved, what has to be trusted,
what was found to be wrong in the code, and how the theorems were tested.

`MANIFEST.json` lists the theorems of each property, `AXIOMS.md` the axioms each theorem depends
on, `FILES.md` what each Lean file is about, `seeded/LOG.jsonl` the wrong programs against which the theorems were tested.

## 1. Layout

| directory | content |
|---|---|
| `lean/Verif/Std/` | the parts of the Rust standard library the code relies on (UTF-8 validity, `str` operations, integer parsing, `BufReader`, `Take`, `read_until`, `read_line`, `read_to_end`, `write_all`, `fs::read`) |
| `lean/Verif/Model/` | the code of `/repo`, function by function, each definition citing file and lines |
| `lean/Verif/Spec/` | small independent specifications the property theorems refer to |
| `lean/Verif/Proofs/` | helper lemmas |
| `lean/Verif/Props/` | the property theorems, one file per group, each with non-vacuity examples |
| `lean/Verif/Tests/` | the unit tests of the project, run on the model |
| `tools/` | scripts: manifest, axioms, properties, translation of the unit tests, seeding of wrong edits |

Theorems about a property are named `Cnn_…`. A theorem `Cnn_…_partial` proves part of the property, and
says in its comment what is missing. A theorem `Cnn_…_false` is a refutation of the property as it is
stated, by a concrete run of the program (or, stronger, by a family of runs).

## 2. Modelling decisions

**Values.**

* Strings are byte lists (`Bytes = List UInt8`); validity as UTF-8 is an explicit check where the
  code has one (`read_line`).
* `&mut` becomes a returned new value; `Result`/`Option` stay data; a panic (arithmetic underflow
  with overflow checks, failed `assert!`, slicing out of range, `unwrap`) is the explicit outcome
  `panic`. Unsigned subtraction takes the build profile as a parameter: with overflow checks an underflow
  panics, without them it wraps modulo 2^64. All theorems quantify over the profile.
* A `HashMap` is an association list with distinct keys. The order of the list stands for the order
  of iteration: theorems about writing messages are about all lists, so about all orders. The order
  of a map that the model itself builds (by parsing, or in the example program) is the order of
  insertion; the program may iterate over it in another order. Where that can be seen, properties
  compare maps as maps (`HeaderMap.Equiv`) or are stated for every permutation (C06, C07, C39). Only
  the pages of the example program (C61) are in one fixed order.

**Input and output.**

* The input of a connection is a *script*: the results that successive `read` calls on the
  socket will give (`data b`, where an empty `b` is the end of the stream, or an IO error such as
  `WouldBlock`). An exhausted script answers `WouldBlock`. So quantifying over scripts quantifies over
  all groupings of bytes into reads, all pauses, all errors. The output is a script of
  accepted amounts and errors plus the log of the bytes handed over.
* The parsers are generic over a class `Reader` with two instances: `Rd`, the model of
  `BufReader` over a script with its buffer and capacity, and `AR`, a list of atoms (bytes, errors, end of
  stream). C01 is that the first refines the second for every buffer size; everything else about
  parsing is then proved about lists.
* In most of the model the reading and the writing half of a stream are separate. `Model/BufStream`
  has the two around one raw stream, as in `src/util/stream.rs`, where the raw stream is any type with
  `read`, `write` and `flush`; C58 says when the halves can be taken apart.
* Loops take fuel computed from the size of the remaining input and answer `diverge` if it runs
  out; the termination property (C17) is that `diverge` never happens. Loops that the program leaves only when
  the outside world changes (`accept`, `write` in `BufStream`) run over infinite sequences or have a
  bound on rounds as a parameter.

**Concurrency.** Threads are transition systems: an executable `step : State → Act → Option State`,
with ghost logs that the steps only append to. `Reach` is reachability by any list of actions, so all
schedules are covered; liveness is about infinite runs that are weakly fair. There are six:

* `Model/ThreadPool`: workers, channel, the mutex around the receiver, the owner;
* `Model/ClientPool`: threads that share a client;
* `Model/ClientPoolAny`: the same over streams of any kind;
* `Model/Net`: the whole server: clients, readiness, event loop, pool, and handlers cut into the steps
  between which others can interfere;
* `Model/NetAny`: the same over streams of any kind, among them TLS streams. A stream does what its `Drop` does when a handler
  drops the connection; a connection that only left the table is dropped with the last job for it, and `AConn.letGo` says
  what its stream does then (C85);
* `Model/FileServer` (`FileServer.step`): workers within the listener of a file router.

**Listeners** are functions of a state shared by all of them and may panic (`none`).

### What is modelled

| source | model | remarks |
|---|---|---|
| `src/parse/*.rs` | `Model/Parse` | all of it (`test_util.rs` is for tests) |
| `src/common/*.rs` | `Model/Header`, `Status`, `Message` | all of it; whole tables |
| `src/server/slab.rs`, `poll.rs` | `Model/Slab`, `AcceptLoop` | all of it; errors of `bind`, `Poll::new` and `poll` are in `Model/Lifecycle` |
| `src/server/router.rs` | `Model/Router` | all of it |
| `src/server/connection.rs`, `server.rs` | `Model/Server`, `Net`, `NetAny` | all of it except printing |
| `src/server/nonblocking_buf_writer.rs` | `Model/Writer` | all of it |
| `src/client/client.rs`, `stream_factory.rs`, `config.rs` | `Model/Client`, `ClientPool`, `ClientNew`, over streams of any kind `ClientAny`, `ClientPoolAny` | all of it |
| `src/util/stream.rs` | `Model/BufStream` | all of it |
| `src/util/tls_stream.rs` | `Model/Tls` | all of it, with the session and stream of rustls below it |
| `src/util/thread_pool.rs` | `Model/ThreadPool` | all of it |
| `src/main.rs` | `Model/FileServer` | all of it |
| `tests/util/test_server.rs` | `Model/TestServer` | the router; the clients are described in `Spec/TestServer` and, for the tests with `curl` over TLS, in `Spec/TestHttps`; that something that is not TLS ends the connection (`infinite_connection`, `normal_http_message` in `tests/https_server.rs`) is C85 |

### What is not modelled

* TLS below `Model/Tls`: certificates, the messages of the handshake and cryptography. A message becomes some
  bytes, any function of its position and content; what arrives is given as what the session makes of it. The
  models of one connection (`Model/Shared`), of the client (`Model/ClientAny`) and of the whole server (`Model/NetAny`) over streams of any kind, so
  over TLS, are shown to behave as those over some plain streams (C71, C76, C78).
* Time. A read that times out is a `WouldBlock` in the script; how long anything takes is not expressed.
* The operating system, mio and the network below the scripts: when readiness is reported (the model
  of readiness in `Model/Net` is edge-triggered, may merge events and may report spuriously), the
  file system beyond a tree of directories and files (no links, permissions, limits), memory, file descriptors
  (except that `accept` may fail, C59).
* Printing to standard output, and the code for tests (`src/util/mock.rs`, `src/parse/test_util.rs`, `tests/` but for the router of the server tests).
* What a listener of the user does, beyond being a function of its arguments and the shared state.

## 3. Properties

| id | modelled | how it is proved |
|---|---|---|
| C01 | all parsers over the script reader; the calls of a connection of the client and of threads that share one, the handler of a connection of the server (`Props/Grouping.lean`) | every reader primitive is a function of the flattened script; the parsers then depend on it only, and so do the client and the server |
| C02 | same, with a driver that calls parse again after `WouldBlock` | refuted (split characters, accounting of headers and bodies); partial for pauses at character boundaries of lines or anywhere in a body (`Spec/Cuts`, `Props/Cuts`: if more input that begins with the beginning of a character could complete the message, what was received of a line is text, since all of the line is) |
| C03, C04, C05, C09, C11 | request and response parser against a grammar on bytes | induction on the flattened script |
| C06, C07, C39, C49 | `write_request`, `write_response`, `Response::from` | completeness of the parser applied to the printed bytes |
| C08 | chunked parser | induction on the list of chunks |
| C10, C20 | decision logic | case analysis against the stated table; `Props/NotText.lean`: first lines that are not UTF-8 |
| C12 | every reachable state of a parser | induction over parse calls |
| C13–C16 | limits | refuted (accounting across calls); partial theorems with the bounds that do hold |
| C17 | fuel | decreasing measure |
| C18, C19, C21 | header names, multimap, tables | induction; computation over the whole finite tables; the reasons and codes against the IANA registry (`Spec/Registry.lean`) |
| C22 | `read_request`, `is_closed` | refuted for one received character and for cut characters; characterised otherwise |
| C23–C26 | router with stateful listeners | induction on the listeners and the nesting |
| C27, C28 | slab | invariant and refinement to a finite map |
| C29, C30, C53 | event loop over the slab | invariants over histories of events; C30 and C53 refuted in general |
| C31–C33 | `NonBlockingBufWriter` over a script | invariant "sent ++ pending = written"; C31 refuted in general |
| C34–C38 | handling of one connection | trace of a handler against a specification, induction over requests and invocations; for C36 an inductive relation that an invocation satisfies if and only if it goes so, with no condition on input or socket (Spec/Closing.lean) |
| C40–C42 | thread pool | invariants and a decreasing measure under weak fairness; C42 refuted |
| C43, C44, C55 | whole server | invariants; simulation of each connection by a sequential server; fairness |
| C45–C48, C54 | client connection and client pool | case analysis over all outcomes, histories; transition system; for calls that may fail, an invariant over the calls made so far and the stream each one ended on (`Spec/ClientCalls`, `Props/ClientCalls`) |
| C50 | output of the server into the parser of the client | refuted for all routers and requests; partial with `Connection: close` |
| C51, C52, C56 | example file server | refuted; invariants of cache and workers for the parts that hold |
| C57, C60 | client and server together | C34 and C46 composed through the bytes on the stream, for one connection (C57) and every schedule (C60) |
| C58 | `BufStream` over one raw stream | simulation between the shared raw stream and two halves |
| C59 | accept loop over an infinite sequence | refuted; partial if `accept` blocks at some time |
| C61 | example program as a whole | invariant of the caches over all questions to the router, composed with C60 |
| C62 | whole server over infinite time | handlers return (C17 and a bound on what they can read), C44, then C34 at the time when all is read; a flush at the next event |
| C63 | request parser against RFC 9112 | the RFC's grammar is written out in `Spec/Rfc.lean`; C04 reduces both directions to comparing two grammars; inversion lemmas for the refusals |
| C64 | writers and parsers, injection | the text of a contained message determines its first line and fields (line feeds end lines); then framing as announced; no limits needed |
| C65 | response parser against RFC 9112 | as C63 |
| C66 | whole server, memory | generic invariants per connection (Proofs/NetConn.lean); parser states as in Proofs/Message.lean carry how much was read; witnesses by pipelined requests |
| C67 | `TlsStream` over rustls 0.18's session and stream | an invariant of one stream, kept by each operation; composed with C58 by a lemma that lifts invariants of a raw stream through the buffers (Proofs/RawInv.lean) |
| C68 | whole server and a client that sends each request after the answer to the last | induction on the number of requests that come, with C62 for the answers and the client of C57 for what it makes of them; over TLS (HttpsTurns) with `C78_tls_answered_partial`, `C78_tls_open_partial` and the liveness of `HttpsRun.Quiet`; `C68_tls_roomy_partial` (HttpsRoomy) with sockets that always take more |
| C69 | whole server | symbolic runs for any number of workers (`Gathered`, `Fallen`), which also serve `C55_outage_false`; uniqueness from the invariant of the pool |
| C70 | whole server and a client with any history | count the requests written on each stream (C45) and those asked on the connection joined to it (C60) |
| C71 | the handler and `send_request` over one stream that is read and written (`Model/Shared`) | simulation: what the raw stream did is collected into a script, and each loop and parser is followed over both (Proofs/Shared*.lean); composed with C34, C45 and the invariant of C67 |
| C72 | parsers and handler over a script and over the script without its interruptions | simulation (`Sim`) with the relation "same without interruptions" for the deframers that retry; invariant through the handler's loop (Proofs/Interrupt.lean) |
| C73 | `listen_http` from call to return (`Model/Lifecycle`): start, the running server of `Model/Net`, an error of `poll`, the drop of table and pool | the invariants of `Net` do not depend on the owner of the pool, so they go on to hold while it is dropped; composed with C41 and C43 (Proofs/Lifecycle.lean) |
| C74 | RFC 9112 9.3, 9.6: which connections persist (`Spec/Persistence`) | fields of plain requests (C63) and the closing of connections (C34, C36) put together; witnesses |
| C75 | `Client::new_http`, `new_https`, `TlsStreamFactory` (`Model/ClientNew`), host names as a grammar (`Spec/ClientNew`) | the loop of webpki against the grammar, both directions, by the label read so far |
| C76 | `Connection<S>` for any stream and factory (`Model/ClientAny`), the TLS factory of C75 | simulation of the scripted connection, from the last call back to the first: the future of a stream is its script; invariants of streams and factory as parameters, so that C67's invariant of TLS sessions comes along |
| C77 | the server's connection over any raw stream and over TLS (`Model/Shared`, `Model/Tls`) | what `WouldBlock` says is followed up through parser, buffers and session (`Proofs/SharedBlock`, `Proofs/TlsBlock`); that nothing else was heard goes through the scripted connection (`Proofs/Smoothly`) |
| C78 | the whole server over streams of any kind (`Model/NetAny`), with TLS streams for `listen_https` | each step is followed by steps of `Model/Net`, the script of a connection being written down as the raw stream gives its results (`Proofs/NetAny`); invariants of the raw stream may depend on the connection and the history, which ties a TLS session to its own socket; `roomy_reach`: if the socket always takes more, what is written to a session that has done its handshake never fails, and before that nothing is written, so the scripted sockets never fail either and responses may have parts of any length |
| C79 | endless requests are refused after a bounded number of bytes (`Spec/Endless`, `Proofs/Endless`) | text without pauses: the parser is followed byte by byte, what it waits for is the beginning of a request text, whose length is bounded; with pauses: the bound of C13; negations by witnesses; the whole server (`Proofs/CutOff`, `Props/CutOff`): a text that is refused in whatever pieces it comes (`Hopeless`) is met by a connection at rest only if that is closed; header lines of which 13 or another divisor of 4095 or 4096 bytes are counted cannot step over the limit (`Proofs/HeaderLines`), which is why infinite_headers passes however slowly its client writes; the same for chunks whose size divides 3 MiB or one less (`Proofs/EndlessChunks`), and for no others (`Proofs/SlowAnyChunks`, `Props/SlowBody`); how much of an unfinished request a server waits with, for all ASCII texts (`Props/Awaited`): from the invariant of C81, which has the state of the parser in every reachable state |
| C80 | liveness over streams of any kind and over TLS (`Spec/NetAnyRun`, `Proofs/NetAnyStep`, `Proofs/NetAnyRun`) | every act is one of thirteen kinds of step; a ready socket is reported, its job reaches a worker (the run of the pool is fair), and a handler leaves only after `WouldBlock` or by closing; what a stream is like after `WouldBlock` holds whenever no handler runs; with C78 this gives the answers over TLS. A session whose peer is orderly returns data or `WouldBlock` and nothing else (`Proofs/TlsOrderly`), so the server over scripted streams that simulates it keeps the connection open. `Props/HttpsRoomy` with `Proofs/TlsRoomy`: over a socket that always takes more a read that returns `WouldBlock` has sent all first, and an answer is flushed at its end |
| C81 | what listeners see was sent (`Spec/Sent`, `Proofs/Sent`) | what a connection has handed out plus what its parser holds is a subsequence of what was read (a prefix for ASCII); kept by every step of a connection (`Kept`), lifted to streams of any kind with C78, to TLS with the plain text of the records; the text of a request has 17 bytes more than the request holds, so no request comes from nothing |
| C82 | the integration tests on every schedule (`Model/TestServer`, `Spec/TestServer`, `Props/TestServer`; over TLS `Spec/TestHttps`, `Props/TestHttps`) | the router of the tests answers a request with its expected response, whatever the order of the header map; by induction over the requests: once i of them are answered the next one comes, and by C62 it is answered; at the end C62 gives all responses; over TLS: what is asked on the connection is known from C78, so every answer is an expected response, and C68 over TLS gives the rest |
| C83 | client and server over TLS or any streams (`Spec/HttpsEndToEnd`, `Props/HttpsEndToEnd`) | the client over any streams behaves as one over a script (C76), so its exchanges are those on its streams (C46); the server over any streams behaves as the scripted one (C78) and answers the first requests in order; the bytes in between are the same on both sides, because each TLS session seals what was written (C76, C78) |
| C84 | threads that share a client over any streams (`Model/ClientPoolAny`, `Spec/ClientPoolAny`, `Props/ClientPoolAny`) | locks and threads are those of a client over scripted streams in which every call fails (C47); each call of send is as with a factory that is told what to make, so by induction over the run each connection is what `sendAll` makes of it; then C76 and C83; progress as for C47 (`Props/PoolProgress`) |
| C85 | `Props/Closes.lean`, `Props/ClosesAny.lean` | `C85_asked_partial`, `C85_refused_partial`, `C85_ended_partial`, `C85_hangup_partial`: liveness; by `Net.Run.settles` every connection is read to the end of what came, and by `Stands` a slot that has read the deciding text is not live; `C85_any`, `C85_any_ended`, `C85_any_hangup_partial`, `C85_tls`, `C85_tls_ended_partial`, `C85_tls_asked_partial`, `C85_tls_refused_partial`: the same over streams of any kind and TLS, with `opens_hist` (what holds of the streams of open connections) and `Proofs/TlsEnds` (a session that has read the end has reported it), and `ANet.Run.dead` (a connection that a handler has dropped stays as it is); `C85_let_go`, `C85_tls_let_go`: a connection that nothing holds stays so, and its session seals one close_notify when it is dropped; `Props/HttpsCloses` with `Proofs/TlsClosing`: over a socket that always takes more no write fails after the handshake, so that all is given to the session, and the last flush sends all |
| C86 | `Props/ClientReads.lean` | `C86_reads`, `C86_holds`, `C86_shared`, `C86_cut_off`: what a parse call takes at most for any input (`Proofs/Within.lean`) and that the buffer of the reader never holds more than fits (`Proofs/ReaderInv.lean`: what the reading operations keep, the parsers keep; the same for the writer in `Proofs/WriterInv.lean`) give an invariant of the streams of a scripted client; then `C76_client` and `C84_serial` |
| C87 | `Props/Backlog.lean` | `C87_queue_false`: symbolic run for any number of workers (`Gathered` of C69, then `Piled`, one job for each byte); `C87_reasons_partial`: for each connection, jobs + reported events + pending readiness is bounded by the reasons to report it, an invariant over all steps; `C87_any_queue_false`, `C87_any_reasons_partial`: the same over streams of any kind |
| C88 | `Props/Isolation.lean` | a property of pairs of runs: `C88_same_partial` and `C88_tls_same_partial` give one text for all runs, from C60 and C78 and `AnsweredIn.replies` (the answers of a router that does not depend on its state are a function of the requests); `C88_others_partial` compares two at any times, `C88_idle_partial` two that are idle; `C88_any_same_partial`: the same text for streams of all kinds; `C88_eventually_partial`: all of it is sent in the end, from C62 and C80; `C88_closed_partial`, `C88_refused_partial`: until the connection is closed, from C85; `C88_timing_false`: two concrete schedules over the same bytes; `C88_profile_false`: one schedule in both build profiles |
| C89 | `Props/Limited.lean` | `ReadOp.run_spec` (one operation, from the lemmas of `Proofs/Refine.lean`) and induction on the operations; `C89_below`: `ReadOp.run_free`, simulation by the reader without limits; `C89_read_to_end`, `C89_read_until`, `C89_read_bytes`: induction on the loops, each round is one operation |

## 4. Trusted base

* Lean 4.33.0's kernel. `decide +kernel` is used for concrete witnesses and finite tables; it is
  evaluated by the kernel. No `native_decide`, `bv_decide`, `sorry`, own axioms, or `implemented_by`.
* The axioms `propext`, `Classical.choice` and `Quot.sound`, and no others; `AXIOMS.md` lists them
  for each theorem.
* The reading of the Rust sources: that each definition of `Model/` does what the lines it cites do. As a check, 248 of the 249
  unit tests of `/repo/src` hold of the model (`Verif/Tests`). `tools/mktests.py /repo DIR` writes 192 of them from the test modules
  of the sources, the others are translated by hand; most are evaluated by the kernel, those that read 3 MiB of an endless
  stream or register 20000 listeners are proved. `Tests/Harness` models the mock streams and helpers of the tests. Left out are the one test of a
  mock itself, the threads of `can_call_send_request_from_multiple_threads`, and the tests of `/repo/tests`, which open sockets.
* The reading of the documented behaviour of the Rust standard library (`Std/`, and `Mutex`, `mpsc`,
  threads in the concurrent models), and of mio as described in section 2.
* The behaviour of `rustls::StreamOwned` and `Session::complete_io`, version 0.18, written down in `Model/Tls` from its
  documentation and without its sources at hand; likewise the check of host names of webpki 0.21 in `Model/ClientNew`.

## 5. What was found

Each of these is a theorem about the model, with a concrete run.

| theorem | what goes wrong |
|---|---|
| C02_character, C34_cut, C35_cut, C22_cut | a pause inside a multi-byte character loses the part of the line before it; a correct request is answered with 400 or silently dropped |
| C03_lost_bytes, C09_lost_bytes, C11_lost_header | bytes that are not UTF-8 are dropped at a pause: a different request than the one sent is accepted, a header announcing a body is lost |
| C03_ignored_text | text after the version in the request line is accepted and ignored |
| C02_headers, C13_paused, C13_release_unbounded | the limit on header sections does not hold across pauses, and without overflow checks not at all |
| C14_chunked | nor does the limit on chunked bodies |
| C21_registered | the registered status code 425 (Too Early) is unknown: the client cannot parse a response with it |
| C02_body, C15_half, C15_max | bodies between 1.5 and 3 MiB are refused if they are available at once; 3 MiB exactly always |
| C16_headers, C16_chunks, C38_panic, C55_remote | with overflow checks a client can make a worker panic |
| C38_limit | an event without data closes a connection whose header section is exactly at the limit |
| C22_one_character | end of stream after one character is taken for an orderly close |
| C30_server_close | connections closed by the server stay in the table for ever (leak) |
| C53_stale_token, C53_stale_ready | a token is reused while its old socket is registered; events reach the wrong connection |
| C31_reorder, C34_order | the body of a response can overtake its head |
| C31_duplicate | bytes are sent twice after an interruption |
| C37_close, C37_refused | what the socket does not take at once is lost when the server closes |
| C40_started_order | two workers can call jobs out of order (allowed by a weaker reading of the claim) |
| C42_panics, C42_lost, C44_panics, C55_one_request | each panic ends a worker for good; one panicking request can end several; then the event loop panics; queued jobs are lost |
| C44_busy | a worker stays with a connection as long as there are requests on it: as many clients as there are workers, each sending without pause, keep everybody else waiting for ever |
| C46_late, C46_reconnect | after a time-out the late response is returned for the next request |
| C46_garbled | a request that could not be written whole stays in the buffer of the stream if no other can be opened; the next request is then sent as its body, and the answer to this request that nobody made is returned |
| C47_starved, C47_poisoned, C84_starved, C84_poisoned | `Client::send` spins; it can starve, and after a panic on each connection it spins for ever; so it does with streams of any kind |
| C50_unrouted, C68_unrouted | the 404 response has no length, so the client waits for the end of the stream |
| C51_traversal, C51_sibling | path traversal in the example program |
| C52_race, C56_created_later | the cache can bring back old contents, and keeps 404 answers for ever |
| C63_both, C63_lengths, C63_name, C63_case | request smuggling: with Transfer-Encoding and Content-Length, two lengths, a blank before the colon, or `Chunked`, the server sees other requests than RFC 9112 says |
| C63_sign, C63_coding, C63_refused | lengths with a sign and the coding `notchunked` are accepted; fields without blank, chunk extensions and trailers are refused |
| C64_value, C64_target, C64_body, C64_name, C64_response | nothing is escaped: values with line feeds, targets with blanks, bodies without length and names with a colon split requests and responses |
| C65_no_content, C65_not_modified, C65_both, C65_case | the client waits after 204, takes the next response for the body of 304, and misjudges chunked bodies |
| C65_refused | interim responses and unknown codes are errors for the client |
| C66_output, C66_sent_kept, C66_announced | output is buffered without bound; bytes already sent stay in the buffer until all of it is sent; a body is allocated when it is announced |
| C67_drop_lost, C67_truncated, C67_closed | over TLS: data that `write` took is lost if the socket is full when the stream is dropped; a response cut off by somebody else is returned as whole; a response that the server ends by closing the session properly can not be read, and its request is sent twice |
| C55_outage | one request on which a listener panics, followed by some bytes, ends all workers, however many there are, and with the next event the event loop (server.rs 83, thread_pool.rs 54) |
| C69_occupied | one client with one slow request and further bytes occupies all workers: each event starts another handler, which blocks at the mutex of the connection (server.rs 61-65, 83) |
| C70_twice | `send` repeats a request after any error, so a `POST` request that was carried out is carried out again (client.rs 115-118) |
| C71_spurious_end, C71_cut_off | over TLS: after a message that the session answers without passing on plain text, `read` reports the end of the stream; the server drops the connection, the client returns a cut-off response as whole |
| C72_body, C72_resend | a signal that interrupts a read within a Content-Length body or the data of a chunk: the server answers 400 and closes, the client sends its request, also a `POST`, a second time |
| C73_interrupted | `poll_events` does not retry `poll`: one signal that the process handles (or is stopped and continued by) ends the server; requests that have arrived are not answered |
| C73_panicked, C73_panics | if a handler has panicked at any time, `listen_http` does not return the error of `poll` but panics in the drop of its pool, while other handlers still run |
| C74_close, C74_old | `Connection: Close`, `Connection: close, te` and HTTP/1.0 without keep-alive do not close the connection: `should_close_after_response` compares whole values byte by byte, and the version is dropped by the parser |
| C74_client | the client does not look at `Connection: close` in an answer; it sends the next request on that connection, then again on a new one |
| C75_address | `Client::new_https` panics for an address with an IPv4 or IPv6 host |
| C75_timeout | a zero `read_timeout` is accepted; then every `send` that gets a TCP stream panics, and after that the client spins for ever (C47_poisoned) |
| C76_twice | over TLS 1.2 a server that asks to renegotiate before it answers makes the client report an end of stream to itself and send the request, also a POST, again on another connection |
| C77_tls_blocked | while a TLS session cannot send, for example its part of the handshake, the server reads nothing from the client, although on plain TCP it would read and answer |
| C79_garbage | a client that sends single bytes that are not UTF-8, each followed by a pause, is never cut off: `read_line` drops them and no limit counts them |
| C79_release | in a release build, after the limit of the header section has wrapped around, up to 2^60 further header lines are read and the server goes on waiting |
| C79_chunks_release, C79_chunks_debug | the integration test infinite_chunked_body passes only if its client is fast: sent one byte at a time, the same text is read without end in release builds, all of it kept in memory, and in builds with overflow checks the handler panics after 629145 chunks (3 MiB is no multiple of 5) |
| C79_any_chunks_release, C79_any_chunks_debug | the same of chunks of any size that divides neither 3 MiB nor one less, after any header section |
| C79_lines_release, C79_lines_debug | the integration test infinite_headers passes with a slow client only because its lines are 13 bytes long and 13 divides 4095: of lines of any length that divides neither 4095 nor 4096 (one more letter is enough), one byte at a time, any number is read in release builds, and in builds with overflow checks the handler panics once they add up to more than 4096 |
| C81_prefix_false | a byte that is not UTF-8 and that is alone in a read is dropped from a line at a pause, so the listener sees a request that was never sent in one piece (`GET \xff/ HTTP/1.1` read as `GET / HTTP/1.1`) |
| C76_handshake | over TLS a slow handshake is enough: a request whose call failed with an error of writing is sent by the next call, which returns its response |
| C87_queue | the queue of the thread pool has no bound: each event of a connection adds a job even if one is waiting, so one client that sends single bytes while its request is with the listeners makes it as long as it likes (server.rs 61-65, thread_pool.rs 51-54) |
| C88_timing, C88_profile | the same bytes are answered with 404 on one schedule and with 400 on another, as `read_line` fails if a worker looks at the connection while half a letter has arrived (cf. C02_character); what a client is sent depends on the timing of the network and of the workers; and a header section that goes a little over its limit is answered in release builds and costs a worker in debug builds |
| C59_stuck | when `accept` keeps failing the event loop never handles another event |

## 6. Testing the theorems against wrong programs

`tools/mutants.py` holds edits of the model such as a slip in the program would cause, each with the claim
it breaks. `tools/seed.py` applies one of them in a scratch copy, also to the lemmas that only
restate the edited definition where a proof would otherwise fail for that reason alone
(`lemmas_adapted` in the log), rebuilds, takes out every lemma that fails, and goes on until everything
else builds. `theorems_failed` in `seeded/LOG.jsonl` are the property theorems that do not survive. If none of those of the broken claim
fail, the theorem is too weak and is tightened; the log says how.

The log holds 316 edits, each with its last run (`parse-06` with both of its runs). Earlier runs of edits that led to a tightening are not in it;
`theorems_tightened` of those rows says what was changed after them. The runs are from different times: there were 195 property theorems at the first of them
and 454 at the last, so an edit that ran early may break more theorems now than the log says. 18 of the edits in `tools/mutants.py`
have not been run (`slow-05`, `anypool-08` to `-10`, `def-01` to `-11`, `lim-04` to `-06`); they are not in the log.
Three edits break no claim: `file-05`, `tls-15` and `tls-18`, and say so. All others make a theorem of a claim they name fail; where
an edit names several claims, not each of them has a theorem that fails.

A theorem counts as failed if its proof, or that of a lemma it rests on, no longer compiles. This does not show that the
theorem is false of the edited model: `tls-15` and `tls-18` break no claim, and twelve theorems each still fail. The log shows
which edits do not go unnoticed, and not which theorem excludes them.

`parse-06` (a first line that is not UTF-8 is reported as an IO error) named C20, and in its first run only theorems of other claims failed: no
theorem said what happens to such a line in general. C20 was extended to say so, `C20_request_not_text` and `C20_response_not_text`.

`tools/automut.py` makes small edits to every line of the model in turn: a comparison is turned round, a number is changed by one,
a condition is negated, a field is left as it was. It lists the edits under which everything still builds.
