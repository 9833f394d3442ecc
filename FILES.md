# The Lean files

Generated by `tools/files.py` from the description at the beginning of each file.

## Std

| file | what it is about | properties |
|---|---|---|
| `Bytes.lean` | Byte strings |  |
| `Fs.lean` | A file system and `fs::read`, standard library and operating system |  |
| `Io.lean` | `std::io` reading: a raw stream under a `BufReader`, `Take`-like limits, and the loops of `read_line` and `read_to_end` |  |
| `Str.lean` | The `str` methods and integer conversions of the Rust standard library that the code uses |  |
| `Utf8.lean` | UTF-8 validity and `String::pop`, as provided by the Rust standard library |  |

## Model

| file | what it is about | properties |
|---|---|---|
| `AcceptLoop.lean` | `listen_until_blocked`, `src/server/poll.rs` 63-76, without the assumption of `Verif.Model.Slab` that `accept` reports `WouldBlock` at some time: what `accept` does is an infinite sequence |  |
| `BufStream.lean` | `src/util/stream.rs`: one raw stream with a buffered reader and a buffered writer around it, as the server (server.rs 69-79) and the client (client.rs 127) build it |  |
| `Client.lean` | `src/client/client.rs` and `src/client/stream_factory.rs`: one connection of the client, used by one call of `send` at a time |  |
| `ClientAny.lean` | One connection of the client (`src/client/client.rs` 96-129) over streams of any kind, as they are in the program: `Connection<S>` for any `S: Stream` |  |
| `ClientNew.lean` | How a client is made: `src/client/config.rs`, `Client::new_http`, `new_https` and `new` (`src/client/client.rs` 50-78), and `TlsStreamFactory` (`src/client/stream_factory.rs` 44-72) |  |
| `ClientPool.lean` | `Client`, `src/client/client.rs` 40-92: threads that share one client and its connections, as a transition system |  |
| `ClientPoolAny.lean` | `Client`, `src/client/client.rs` 40-92, over streams of any kind, so also as made by `new_https`: threads that share one client and its connections |  |
| `FileServer.lean` | `src/main.rs`: the example program that serves files |  |
| `Header.lean` | `src/common/header.rs`: header names and the header multimap |  |
| `Lifecycle.lean` | How the server starts and ends: `listen_http` as a whole, `src/server/server.rs` 36-66 with `src/server/poll.rs` 22-61, around the running server of `Model/Net` |  |
| `Message.lean` | `src/common/request.rs` and `src/common/response.rs` |  |
| `Net.lean` | The whole server as a transition system: clients, the operating system's readiness notification, the event loop (`src/server/poll.rs`), the thread pool, and the workers that handle connections (`src/server/server.rs` 48-138) |  |
| `NetAny.lean` | The whole server over streams of any kind, as it is in the program: `listen_abstract` (`src/server/server.rs` 47-66) is generic in the type of the streams, and `listen_https` uses it with TLS streams |  |
| `Parse.lean` | `src/parse/`: the resumable parsers |  |
| `Router.lean` | `src/server/router.rs` |  |
| `Server.lean` | `src/server/connection.rs`, and the part of `src/server/server.rs` that handles one connection |  |
| `Shared.lean` | The handler of a connection of the server (`src/server/connection.rs`, `src/server/server.rs`) and `send_request` of the client (`src/client/client.rs`), over a stream that is read and written, as in the program |  |
| `Slab.lean` | `src/server/slab.rs` and `src/server/poll.rs` |  |
| `Status.lean` | `src/common/status.rs`, `src/common/method.rs`, `src/common/version.rs` |  |
| `TestServer.lean` | `tests/util/test_server.rs`: the router of the integration tests of the server |  |
| `ThreadPool.lean` | `src/util/thread_pool.rs`: the worker threads, the channel, the mutex around its receiver, and the owner of the pool, as a transition system |  |
| `Tls.lean` | `src/util/tls_stream.rs`: a TLS session over a TCP stream |  |
| `Writer.lean` | `src/server/nonblocking_buf_writer.rs`, and `std::io` writing: a raw stream, `write_all`, `write!`, and `BufWriter`; then `write_response` (`src/server/server.rs`) and `write_request` (`src/client/client.rs`) |  |

## Spec

| file | what it is about | properties |
|---|---|---|
| `BufStream.lean` | What one expects of a buffered stream |  |
| `Client.lean` | Independent notions about the client |  |
| `ClientAny.lean` | Calls of `send` on one connection over streams of any kind, and what corresponds to them where the streams are scripted |  |
| `ClientCalls.lean` | Calls of `send` on one connection of the client, however they end, as they are seen from outside |  |
| `ClientNew.lean` | Names of hosts |  |
| `ClientPool.lean` | Runs of threads that share a client, for the statements about them |  |
| `ClientPoolAny.lean` | Vocabulary for C84: threads that share a client over streams of any kind |  |
| `Closes.lean` | Independent vocabulary for C85: connections that should end |  |
| `ClosesAny.lean` | Independent vocabulary for C85 over streams of any kind |  |
| `Closing.lean` | When the server closes a connection, as a relation on what the calls it makes return |  |
| `Cuts.lean` | Where the input of a server may pause without loss |  |
| `EndToEnd.lean` | Independent notions about a client and a server that talk to each other |  |
| `Endless.lean` | Clients that never finish their request |  |
| `FileServer.lean` | Files under a directory, content types, and histories of the file router, for the statements about it |  |
| `Grammar.lean` | The messages on the wire, declaratively: which byte strings are requests, responses and bodies, and what they say |  |
| `HttpsEndToEnd.lean` | Vocabulary for C83: a client and a server that talk over streams of any kind, or over TLS |  |
| `HttpsTurns.lean` | Independent vocabulary for C68 over TLS: a client of the library that calls `send` again and again, on one connection to a server that was started with `listen_https` |  |
| `InTurns.lean` | Independent vocabulary for C68: a client of the library that calls `send` again and again, on one connection to a server of the library |  |
| `Injection.lean` | Which messages stay one message when they are written |  |
| `Input.lean` | Independent notions about the input of a connection |  |
| `Interrupt.lean` | Reads that a signal interrupts |  |
| `Lifecycle.lean` | Runs of `listen_http` from its call to its end, for C73 |  |
| `Memory.lean` | How much the server keeps for a connection |  |
| `Net.lean` | Runs of the whole server, for the statements about it |  |
| `NetAny.lean` | Vocabulary for C78: the whole server over streams of any kind |  |
| `NetAnyRun.lean` | Vocabulary for C80: infinite runs of the whole server over streams of any kind |  |
| `Numeral.lean` | Numerals, declaratively |  |
| `Persistence.lean` | When a connection stays open after a request, as RFC 9112 9.3 says |  |
| `Progress.lean` | Independent vocabulary for C62: clients that send requests and wait |  |
| `Registry.lean` | The status codes of the IANA registry (HTTP Status Code Registry, as of RFC 7231, 7538, 7540, 7725 and 8470), without the informational ones |  |
| `Rfc.lean` | HTTP/1.1 requests as RFC 9112 (and RFC 9110 for fields) defines them, as far as it matters for where a request ends and what it says |  |
| `RfcResponse.lean` | HTTP/1.1 responses as RFC 9112 defines them, as far as it matters for where a response ends and what it says |  |
| `RoundTrip.lean` | Which messages survive being written and read back |  |
| `Routing.lean` | Routing, declaratively |  |
| `Sent.lean` | Vocabulary for C81: what the requests that listeners see are made of |  |
| `Serving.lean` | Independent notions about serving a connection |  |
| `Shared.lean` | Serving and sending over a raw stream of any kind, and what corresponds to it where the stream is in two parts |  |
| `Site.lean` | What the example program is to answer |  |
| `Table.lean` | Tables, declaratively |  |
| `TestHttps.lean` | Vocabulary for C82 over TLS: the clients of the integration tests of the HTTPS server |  |
| `TestServer.lean` | Vocabulary for C82: the clients of the integration tests of the server |  |
| `Text.lean` | Declarative notions about text |  |
| `ThreadPool.lean` | Runs of the thread pool, for the statements about it |  |
| `Tls.lean` | What one expects of a TLS stream |  |
| `TlsServer.lean` | When a TLS stream has to wait |  |
| `Writing.lean` | Independent notions about writing: what a message looks like on the wire, and what a socket does |  |

## Proofs

| file | what it is about | properties |
|---|---|---|
| `Atoms.lean` | What `scan`, `takeN` and `drain` do to a list of atoms |  |
| `BufStream.lean` | Buffered streams: the two directions do not interfere |  |
| `BufStreamAny.lean` | Buffered streams over an arbitrary raw stream |  |
| `Calls.lean` | Successive parse calls on a stream, and the transfer of results from atoms to streams |  |
| `ClientKeen.lean` | The buffered writer of the client over a stream that takes what it is given |  |
| `ClientWriter.lean` | What the buffered writer of the client does with the bytes it is given |  |
| `Complete.lean` | Completeness: every message of the grammar that fits is accepted by one call, which consumes exactly its bytes |  |
| `Conform.lean` | A stream that brings requests of the grammar one after the other, in any pieces that do not cut a character of a line, is read as these requests |  |
| `CutOff.lean` | Texts of which only the beginning is read: the parser gives up, at whatever places it pauses |  |
| `Ending.lean` | The end of the stream where a parser waits for more |  |
| `Endless.lean` | Reading bytes only: how much one call takes, and what it can end with |  |
| `EndlessChunks.lean` | A chunked body in which one chunk is repeated |  |
| `Frame.lean` | Instances of `Sim`: what is left is a suffix of the input; later input does not matter to a parse that did not run out of input; larger limits do not matter to a parse that did not hit a limit |  |
| `Fuel.lean` | The loops of the parsers never run out of fuel, so they satisfy their unfolding equations |  |
| `HeaderLines.lean` | A header section in which one line is repeated |  |
| `Idle.lean` | Parse calls when there is nothing to read |  |
| `Interrupt.lean` | Interrupted reads: only those within a part of known length matter |  |
| `Lifecycle.lean` | What holds of a call of `listen_http` from its start to its end |  |
| `Line.lean` | The CRLF line parser, byte by byte |  |
| `Local.lean` | A parse that succeeds depends only on what it consumed |  |
| `Memory.lean` | What parsers and writers keep |  |
| `Message.lean` | Soundness of whole messages: whatever the message parser accepts, in one call or several, is a message of the grammar |  |
| `Net.lean` | The steps of the server, case by case, and what always holds |  |
| `NetAny.lean` | The whole server over streams of any kind: what it does is what it does over scripted streams |  |
| `NetAnyCloses.lean` | Connections over streams of any kind that the event loop has dropped |  |
| `NetAnyLeft.lean` | What is known of the raw streams of connections that the server has dropped |  |
| `NetAnyLetGo.lean` | Connections that nothing holds any more |  |
| `NetAnyOpen.lean` | What is known of the raw streams of connections that are open, if it need not survive errors of writing: a handler that gets one drops the connection |  |
| `NetAnyRun.lean` | Infinite runs of the whole server over streams of any kind: a connection that is reported as ready is looked at |  |
| `NetAnyStep.lean` | One step of the whole server over streams of any kind |  |
| `NetBlame.lean` | Why workers of the server end |  |
| `NetCloses.lean` | How connections end: why one that nobody uses is closed, and that one that should end does |  |
| `NetConform.lean` | The whole server, for connections on which requests of the grammar arrive |  |
| `NetConn.lean` | Invariants of single connections: what is kept by everything that happens to a connection holds of it in every reachable state |  |
| `NetIdle.lean` | A connection that nobody uses, and on which everything was read: all its requests have been answered |  |
| `NetReturn.lean` | Every handler returns, unless what it reads never ends |  |
| `NetRun.lean` | What holds in every state that a server can reach, and along its runs |  |
| `NetSerial.lean` | Handlers of one connection, on any schedule, do what they would do one after the other |  |
| `NetSettle.lean` | When nothing arrives any more, everything is read and answered |  |
| `NetUri.lean` | The URIs of the requests that a server reads are text |  |
| `NetWake.lean` | No wake-up is lost: what always holds |  |
| `Numeral.lean` | Integer parsing and printing against the declarative numerals |  |
| `Panic.lean` | Where a parse call can panic |  |
| `Pauses.lean` | Several calls against one call: from the message loop to the parsers on streams |  |
| `Pieces.lean` | Bodies arriving in pieces |  |
| `RawInv.lean` | What every operation of a raw stream preserves is preserved by every use of the buffered streams around it |  |
| `ReaderInv.lean` | What every reading operation keeps, the parsers keep |  |
| `Refine.lean` | The byte by byte reader `AR` simulates `BufReader` over a chunked stream, operation by operation |  |
| `RefineParse.lean` | Every parser gives the same outcome on a chunked stream as on the same stream byte by byte, and leaves the same stream behind |  |
| `Regroup.lean` | Regrouping a script is the same as having the same atoms |  |
| `RoundTrip.lean` | Header maps that are written and read back, in any order of their entries |  |
| `Sent.lean` | What the requests that listeners see are made of: an invariant of open connections, and one of all connections |  |
| `Serving.lean` | Serving a connection: from the handler to the parse calls it makes and the answers it writes |  |
| `Shared.lean` | A run over a stream that is read and written is a run over a stream in two parts, for scripts that have what the stream did |  |
| `SharedBlock.lean` | A parser that says it has to wait says so because the stream did, and used the stream for nothing after that |  |
| `SharedHandle.lean` | The handler of the server and `send_request` of the client over a stream that is read and written, and over the parts |  |
| `SharedParse.lean` | The parsers over a stream that is read and written, and over the reading part |  |
| `SharedStack.lean` | The buffered streams of the server and of the client, seen as two parts |  |
| `SharedWrite.lean` | Writing to a stream that is read and written, and to the writing part |  |
| `Short.lean` | The parser never keeps more than 512 bytes of an unfinished line, whatever error it is resumed after |  |
| `Sim.lean` | A parser run on two related inputs |  |
| `SlowAnyChunks.lean` | A chunked body in which one chunk is repeated, one byte at a time |  |
| `SlowChunks.lean` | The text of the test infinite_chunked_body (tests/http_server.rs 498-522), one byte at a time |  |
| `SlowLines.lean` | Header lines, one byte at a time |  |
| `Smoothly.lean` | A parser that got a request, or waits for more of it, has met neither the end of the stream nor an error in it, but for errors that say that there is nothing to read yet and interruptions |  |
| `Sound.lean` | What the state of a parser says about the bytes it has consumed |  |
| `Split.lean` | A call stopped for lack of input, compared with one call that has all the input |  |
| `Text.lean` | The string functions and the header map against the declarative notions |  |
| `ThreadPool.lean` | Invariants of the thread pool |  |
| `Tls.lean` | What the operations of a TLS stream do to it |  |
| `TlsBlock.lean` | Why a TLS stream has to wait |  |
| `TlsCalm.lean` | A TLS stream over a TCP stream that is never interrupted is never interrupted; and `read` delivers no more than there is room for |  |
| `TlsClosing.lean` | A TLS server whose sockets always take more sends all it has to send before it closes a connection |  |
| `TlsEnds.lean` | A TLS stream does not pass over the end of its TCP stream in silence |  |
| `TlsFree.lean` | TLS streams whose sockets never fail |  |
| `TlsOrderly.lean` | A TLS stream whose peer is orderly, over a TCP stream that at worst has nothing to read or no room to write, does nothing worse itself |  |
| `TlsRoomy.lean` | A TLS server whose sockets always take more keeps nothing back |  |
| `Trace.lean` | Whatever happens on a connection: what has been sent is answers to requests received |  |
| `Unique.lean` | The grammar is unambiguous and prefix-free: a stream starts with at most one message |  |
| `Utf8.lean` | When byte strings are valid UTF-8: concatenation, single characters, and what `String::pop` leaves |  |
| `Waiting.lean` | A parser that has read everything and waits has no complete request before it |  |
| `Within.lean` | How much one parse call takes at most, whatever is read |  |
| `Writer.lean` | What the non-blocking writer does with the bytes it is given |  |
| `WriterInv.lean` | What every writing operation keeps, writing a message keeps; and the buffer of `BufWriter` never holds more than its capacity |  |

## Props

| file | what it is about | properties |
|---|---|---|
| `AcceptLoop.lean` | C59: trouble with accepting connections does not stop the server | C59 |
| `Awaited.lean` | C79 for the whole server: how much of a request that is not finished a server waits with | C79 |
| `Backlog.lean` | C87: how many jobs wait in the queue of the thread pool | C87 |
| `Basic.lean` | C10 (which framing a body uses), C18 (header names), C19 (header map), C20 (first lines), C21 (methods and statuses) | C10, C18, C19, C20, C21 |
| `BufStream.lean` | C58: the two directions of a buffered stream do not interfere, and neither loses, repeats or reorders bytes | C58 |
| `Busy.lean` | C44: without a bound on what arrives it is false | C44 |
| `Client.lean` | C45, C46, C48: what one connection of the client does | C45, C46, C48 |
| `ClientAny.lean` | C76: a connection of the client over streams of any kind, with its reconnecting | C76 |
| `ClientCalls.lean` | C46, C76: calls of `send` on one connection, however they end | C46, C76 |
| `ClientNew.lean` | C75: making a client | C75 |
| `ClientPool.lean` | C47: threads that share one client | C47 |
| `ClientPoolAny.lean` | C84: threads that share a client over streams of any kind, so also an HTTPS client | C84 |
| `ClientReads.lean` | C86: how much a server can make the client read | C86 |
| `Closes.lean` | C85: connections that should end do end | C85 |
| `ClosesAny.lean` | C85 over streams of any kind, and over TLS: connections whose stream ends, or whose client hangs up, are closed | C85 |
| `Closing.lean` | C36: when the server closes a connection, whatever comes and whatever the socket does | C35, C36 |
| `CutOff.lean` | C79 for the whole server: a client whose first line, header section or chunked body has no end is cut off on every schedule | C79 |
| `Cuts.lean` | C02 for requests of the grammar: where their text may be cut | C02, C34 |
| `EndToEnd.lean` | C57: the client and the server of this library talk to each other | C57 |
| `Endless.lean` | C79: a client that never finishes its request is cut off | C79 |
| `FileServer.lean` | C51 and C52: the example file server | C51, C52, C56 |
| `Garbled.lean` | C46: what is sent after a request that could not be written whole | C46, C76 |
| `Grouping.lean` | C01 for the client and the server: how the bytes of the peer are grouped into reads makes no difference to what the calls of a connection of the client return, or to what either side sends | C01 |
| `HttpsCalls.lean` | C83 and C84 for calls of `send` however they end: on each stream, the calls until the first one that failed on it returned what the router of the server at its other end answered | C83, C84 |
| `HttpsCloses.lean` | C85 over TLS, with sockets that always take more: before the server closes a connection it sends all it has to send | C85 |
| `HttpsEndToEnd.lean` | C83: the HTTPS client and the HTTPS server of the library understand each other, on every schedule | C83 |
| `HttpsRoomy.lean` | C80 over sockets that always take more: whenever no handler uses a connection, the server has sent all that it has to send | C68, C80 |
| `HttpsTurns.lean` | C68 over TLS: an HTTPS client and an HTTPS server of the library do not wait for each other for ever | C68 |
| `InTurns.lean` | C68: the client and the server of the library do not wait for each other for ever | C68 |
| `Injection.lean` | C64: what is written as one message is read as one message | C64 |
| `Interrupt.lean` | C72: a signal that interrupts a read makes no difference | C72 |
| `Isolation.lean` | C88: what is sent to a client depends on nothing but what the client sends, if the answers of the listeners do not depend on what they were asked before | C88 |
| `Lifecycle.lean` | C73: how `listen_http` starts and ends | C73 |
| `Limited.lean` | C89: a limited reader passes on exactly the bytes up to its limits | C89 |
| `Limits.lean` | C08, C09 (chunked bodies), C12 to C16 (limits and panics) | C08, C09, C12, C13, C14, C15, C16 |
| `Memory.lean` | C66: how much the server keeps for a connection | C66 |
| `Message.lean` | C03, C04, C05, C11: whole requests and responses against the grammar | C03, C04, C05, C10, C11, C20 |
| `Net.lean` | C43 and C44: connections, events, workers and handlers together, on every schedule | C43, C44, C55 |
| `NetAny.lean` | C78: the whole server over streams of any kind, and over TLS | C78 |
| `NetAnyRun.lean` | C80: over streams of any kind, and over TLS, what arrives is read in the end, and requests are answered in the end | C80 |
| `NotText.lean` | C20: first lines that are no text | C20 |
| `Once.lean` | C70: how often the server carries out a request that the client was asked to send once | C70 |
| `Outage.lean` | One request on which a listener panics ends the whole server, however many workers it has | C55, C69 |
| `Pauses.lean` | C02: pausing and resuming a parse | C02 |
| `Persistence.lean` | C74: connections stay open, or not, as HTTP/1.1 says | C74 |
| `PoolProgress.lean` | C84: threads that wait for a connection of a client over streams of any kind (C47) | C84 |
| `Progress.lean` | C44 without the assumption that handlers return, and C62: every request is answered in the end | C44, C62 |
| `Rfc.lean` | C63: the server reads requests as HTTP/1.1 says | C63 |
| `RfcResponse.lean` | C65: the client reads responses as RFC 9112 says | C65 |
| `RoundTrip.lean` | C06, C07, C49 and C50: what one side writes, the other side reads back | C06, C07, C49, C50 |
| `Routing.lean` | C23 to C26: the router | C23, C24, C25, C26 |
| `Sent.lean` | C81: every request that a listener sees was sent on its connection, and no byte counts twice | C81 |
| `Serving.lean` | C22, C34 - C38: what a connection is answered with, and when it is closed | C22, C34, C35, C36, C37, C38 |
| `Shared.lean` | C71: serving and sending over a raw stream of any kind, whose directions may affect each other | C71 |
| `Site.lean` | C61: the example program, and C26 for the whole server | C26, C61 |
| `SlowBody.lean` | C79 is false of the text of infinite_chunked_body, and of many chunks and header lines, if it comes slowly | C79 |
| `Stream.lean` | C01 (grouping of bytes into reads) and C17 (every parse call returns) | C01, C17 |
| `Table.lean` | C27 to C30: the connection table and the event loop | C27, C28, C29, C30, C53 |
| `TestHttps.lean` | C82 over TLS: what the integration tests of the HTTPS server check holds on every schedule | C82 |
| `TestServer.lean` | C82: what the integration tests of the server check holds on every schedule | C82 |
| `ThreadPool.lean` | C40 to C42: the thread pool | C40, C41, C42 |
| `Tls.lean` | C67: TLS streams | C67 |
| `TlsServer.lean` | C77: a handler that keeps its connection has read all that there was to read | C77 |
| `WholeSystem.lean` | C60: clients and the whole server together, on every schedule | C60 |
| `Writing.lean` | C31, C32, C33, C39, C54: what is written arrives on the wire | C31, C32, C33, C39, C54 |

## Tests

| file | what it is about | properties |
|---|---|---|
| `Body.lean` | The unit tests of `src/parse/body.rs`, written by `tools/mktests.py` |  |
| `ByHand.lean` | Unit tests of the project that are not of the common forms, translated by hand |  |
| `Endless.lean` | The unit tests of `src/parse/body.rs` and `src/parse/message.rs` that are not of the common forms, by hand |  |
| `Harness.lean` | The test code of the project itself: the mock streams of `src/util/mock.rs` and the helpers of `src/parse/test_util.rs` |  |
| `Headers.lean` | The unit tests of `src/parse/headers.rs`, written by `tools/mktests.py` |  |
| `Line.lean` | The unit tests of `src/parse/crlf_line.rs`, written by `tools/mktests.py` |  |
| `Message.lean` | The unit tests of `src/parse/message.rs`, written by `tools/mktests.py` |  |
| `Request.lean` | The unit tests of `src/parse/request.rs`, written by `tools/mktests.py` |  |
| `Response.lean` | The unit tests of `src/parse/response.rs`, written by `tools/mktests.py` |  |
| `Router.lean` | The unit tests of `src/server/router.rs`, translated by hand |  |
| `Server.lean` | The unit tests of `src/server/server.rs`, written by `tools/mktests.py` |  |
