{"id": "C01", "title": "Grouping of bytes into reads does not matter", "statement": "How the network groups the bytes of a connection into individual read results, and how large the read buffer is, never changes what a single parse of a request or response returns (value, error kind, parser state kept for later) nor which bytes are left unread for the next message.", "quantifier": "all byte streams (with EOF, would-block, interrupted and error results anywhere), all groupings of them into reads, all positive buffer sizes, all parser states", "why_tests_cant": "The unit tests try a handful of fragmentations of a few messages; the number of groupings is exponential in the message length.", "anchors": ["src/parse/deframe/line.rs:LineDeframer", "src/parse/deframe/bytes.rs:BytesDeframer", "src/parse/error_take.rs:ErrorTake", "src/parse/message.rs:MessageParser", "src/parse/request.rs:RequestParser", "src/parse/response.rs:ResponseParser"]}
{"id": "C02", "title": "Pausing and resuming a parse does not matter", "statement": "When reading stops because no more data is available yet (WouldBlock) and parsing is resumed later with the kept parser, the final outcome is the one that would have been obtained had all bytes been available at once, wherever the pauses fall.", "quantifier": "all request byte streams and all sets of pause positions", "why_tests_cant": "There are 2^n sets of pause positions for an n byte message and the interesting ones (inside a multi-byte character, near a limit) are not the ones tests pick.", "anchors": ["src/parse/deframe/line.rs:LineDeframer::read", "src/parse/crlf_line.rs:CrlfLineParser::parse", "src/parse/headers.rs:HeadersParser::parse", "src/parse/body.rs:BodyParser::parse", "src/parse/message.rs:MessageParser::parse", "src/server/connection.rs:Connection::read_request"]}
{"id": "C03", "title": "Accepted requests are well formed and reported faithfully", "statement": "If the server hands a request to the router, then the bytes consumed for it were a request line with a supported method, a target and a supported HTTP version separated by single spaces, CRLF, header lines each containing \": \" and ended by CRLF, an empty line, and a body of the announced length or chunking; method, uri, header values and body handed over are exactly those in the bytes.", "quantifier": "all byte streams on which parsing a request succeeds", "why_tests_cant": "Soundness ranges over every accepted byte string, not over a list of examples.", "anchors": ["src/parse/request.rs:parse_first_line", "src/parse/headers.rs:parse_header", "src/parse/message.rs:MessageParser::parse", "src/parse/body.rs:BodyParser"]}
{"id": "C04", "title": "Every well-formed request within the limits is accepted", "statement": "Any request whose first line and header lines fit in 512 bytes each, whose header section fits in 4096 bytes, and whose body is announced by a decimal Content-Length (at most half of 3 MiB) or is absent, is accepted and reported with exactly its method, target, headers and body.", "quantifier": "all methods, targets without spaces or line breaks, supported versions, header lists and bodies within the limits, whatever follows on the connection", "why_tests_cant": "Completeness ranges over all messages up to the limits, including the exact boundary sizes.", "anchors": ["src/parse/request.rs:RequestParser", "src/parse/crlf_line.rs:MAX_LINE_SIZE", "src/parse/headers.rs:MAX_HEADERS_SIZE", "src/parse/body.rs:MAX_BODY_SIZE"]}
{"id": "C05", "title": "A message consumes exactly its own bytes", "statement": "Parsing a request consumes exactly the bytes of that request; everything after it stays unread and is available for the next request, so pipelined requests are parsed one after the other without loss or overlap.", "quantifier": "all accepted requests followed by arbitrary further bytes and events", "why_tests_cant": "Tests check one or two concatenated requests; the claim is about every accepted request and every suffix.", "anchors": ["src/parse/message.rs:MessageParser::parse", "src/parse/deframe/bytes.rs:BytesDeframer::read", "src/server/connection.rs:Connection::read_request"]}
{"id": "C06", "title": "What the client writes the server reads back", "statement": "A request written with write_request and parsed by the server yields an equal request, in whatever order the header map is iterated, if its target and header names/values contain no separators or line breaks, header keys are in canonical form, sizes are within the limits and Content-Length (if any body) matches the body.", "quantifier": "all such requests and all iteration orders of the header map", "why_tests_cant": "A round trip law over an infinite set of requests and all HashMap iteration orders.", "anchors": ["src/client/client.rs:write_request", "src/parse/request.rs:RequestParser", "src/common/header.rs:Header", "src/common/method.rs:Method"]}
{"id": "C07", "title": "What the server writes the client reads back", "statement": "A response written with write_response and parsed by the client yields an equal response, in whatever order the header map is iterated, if the status is one of the predefined ones, header names/values contain no separators or line breaks, keys are canonical, sizes are within limits and Content-Length equals the body length; without a Content-Length the same holds provided the connection is then closed.", "quantifier": "all such responses and all iteration orders of the header map", "why_tests_cant": "A round trip law over an infinite set of responses and all HashMap iteration orders.", "anchors": ["src/server/server.rs:write_response", "src/parse/response.rs:ResponseParser", "src/common/status.rs:Status"]}
{"id": "C08", "title": "Chunked bodies decode to the concatenation of their chunks", "statement": "A chunked body consisting of any sequence of non-empty chunks, each preceded by its size in hexadecimal and followed by CRLF, ended by a zero chunk and an empty line, decodes to the concatenation of the chunk data and leaves everything after the final CRLF unread, as long as the whole encoded body is at most 3 MiB.", "quantifier": "all lists of non-empty chunks, all spellings of the sizes in hexadecimal, all following bytes", "why_tests_cant": "All numbers and sizes of chunks, all contents (including CRLF inside chunk data).", "anchors": ["src/parse/body.rs:chunked::ChunksParser", "src/parse/body.rs:chunked::parse_chunk_size"]}
{"id": "C09", "title": "Only correctly framed chunked bodies are accepted", "statement": "If a chunked body is accepted, the consumed bytes are a sequence of chunks, each a hexadecimal size line, exactly that many bytes and CRLF, of which exactly the last has size zero, and the body is the concatenation of the data; chunk extensions, trailers, wrong sizes and missing CRLFs are rejected.", "quantifier": "all byte streams on which the chunked parser succeeds", "why_tests_cant": "Soundness over all accepted inputs.", "anchors": ["src/parse/body.rs:chunked::ChunksParser", "src/parse/body.rs:chunked::tailing_crlf_state"]}
{"id": "C10", "title": "Which framing a body uses", "statement": "The body of a message is delimited by the first Content-Length header if there is one (regardless of Transfer-Encoding), else by chunked coding if the first Transfer-Encoding value contains 'chunked', else a response extends to end of stream and a request has no body; a Content-Length that is not an optionally '+'-prefixed decimal number below 2^64 is rejected as InvalidHeaderValue and one above 3 MiB as ContentLengthTooLarge.", "quantifier": "all header maps", "why_tests_cant": "All combinations of repeated and conflicting headers and all header value strings.", "anchors": ["src/parse/body.rs:BodyParser::new", "src/parse/body.rs:get_content_length", "src/parse/body.rs:is_chunked_transfer_encoding"]}
{"id": "C11", "title": "A truncated request is never delivered", "statement": "If the peer closes the connection before the last byte of a request has arrived, no request is delivered to the router for these bytes: no proper prefix of a request followed by end of stream (or by silence) is itself accepted as a request.", "quantifier": "all accepted requests and all cut positions", "why_tests_cant": "Ranges over all messages and all truncation points.", "anchors": ["src/parse/deframe/line.rs:LineDeframer::read", "src/parse/deframe/bytes.rs:BytesDeframer::read", "src/parse/message.rs:MessageParser::parse"]}
{"id": "C12", "title": "Lines are limited to 512 bytes", "statement": "However the bytes arrive, the parser never keeps more than 512 bytes of an unfinished line and never accepts a request line, header line, chunk size line or status line longer than 512 bytes including CRLF; lines of up to 510 bytes plus CRLF are accepted.", "quantifier": "all byte streams, all pauses, all parser states reachable by any sequence of parse calls", "why_tests_cant": "An invariant over all reachable parser states.", "anchors": ["src/parse/crlf_line.rs:CrlfLineParser::parse", "src/parse/error_take.rs:ErrorTake"]}
{"id": "C13", "title": "The header section is limited to 4096 bytes", "statement": "No message whose header section (all header lines and the terminating empty line) exceeds 4096 bytes is ever accepted, however the bytes arrive.", "quantifier": "all byte streams and all pause positions", "why_tests_cant": "Depends on the accounting across every possible sequence of parse calls.", "anchors": ["src/parse/headers.rs:HeadersParser::parse", "src/parse/headers.rs:MAX_HEADERS_SIZE"]}
{"id": "C14", "title": "Bodies are limited to 3 MiB", "statement": "No message with a body larger than 3 MiB is ever accepted, whichever framing it uses and however the bytes arrive.", "quantifier": "all byte streams, all framings and all pause positions", "why_tests_cant": "Depends on the accounting across every possible sequence of parse calls.", "anchors": ["src/parse/body.rs:BodyParser::parse", "src/parse/body.rs:MAX_BODY_SIZE", "src/parse/body.rs:chunked::ChunksParser"]}
{"id": "C15", "title": "Bodies up to 3 MiB are accepted", "statement": "Every message with a correct Content-Length of at most 3 MiB is accepted.", "quantifier": "all body lengths up to 3 MiB and all body contents", "why_tests_cant": "Tests use small bodies only; the claim is for every length up to the limit.", "anchors": ["src/parse/body.rs:BodyParser::parse", "src/parse/deframe/bytes.rs:BytesDeframer::read_so_far"]}
{"id": "C16", "title": "No input makes the parser panic", "statement": "No sequence of bytes, pauses, errors or end-of-stream results makes reading a request or response panic.", "quantifier": "all byte streams, all pauses, all sequences of parse calls, debug and release arithmetic", "why_tests_cant": "Absence of a panic over all inputs and schedules.", "anchors": ["src/parse/crlf_line.rs:CrlfLineParser::parse", "src/parse/headers.rs:HeadersParser::parse", "src/parse/body.rs:BodyParser::parse"]}
{"id": "C17", "title": "Every parse call returns", "statement": "Every parse call on a connection returns after consuming finitely many read results: the parser never loops without consuming input.", "quantifier": "all byte streams and all parser states", "why_tests_cant": "Termination cannot be observed by a finite test.", "anchors": ["src/parse/headers.rs:HeadersParser::parse", "src/parse/body.rs:chunked::ChunksParser::parse", "src/parse/message.rs:MessageParser::parse"]}
{"id": "C18", "title": "Header names are case-insensitive", "statement": "Two spellings of a header name differing only in ASCII case denote the same header key, the key's text is the lower-case spelling, converting a key's text back gives the same key, and different lower-case names denote different keys; the predefined constants are exactly what their names convert to.", "quantifier": "all header name strings", "why_tests_cant": "All strings; tests sample a few.", "anchors": ["src/common/header.rs:Header", "src/common/header.rs:From<String>"]}
{"id": "C19", "title": "The header map is an insertion-ordered multimap", "statement": "After any sequence of additions, looking up a header returns all values added for it, in order of addition, and nothing else; the first value is the first one added; adding under one key never affects another.", "quantifier": "all sequences of additions and all keys", "why_tests_cant": "All operation histories.", "anchors": ["src/common/header.rs:HeaderMapOps", "src/common/header.rs:HeaderMap"]}
{"id": "C20", "title": "Bad request lines are rejected with the documented error", "statement": "A first line with fewer than two spaces is BadSyntax; otherwise a third field other than HTTP/1.0 or HTTP/1.1 is InvalidHttpVersion; otherwise a first field other than GET, POST, DELETE, PUT (case-sensitive) is UnrecognizedMethod; otherwise the line is accepted; likewise for status lines with InvalidStatusCode. A first line that is not UTF-8 is InvalidUtf8.", "quantifier": "all first lines", "why_tests_cant": "A decision procedure over all strings.", "anchors": ["src/parse/request.rs:parse_first_line", "src/parse/request.rs:parse_method", "src/parse/response.rs:parse_first_line", "src/parse/response.rs:parse_status", "src/common/version.rs:is_supported"]}
{"id": "C21", "title": "Methods and statuses convert both ways", "statement": "Printing a method and parsing the text gives the method back and no other text parses as a method; looking up a status code returns a status with that code, every predefined status is found under its code, and all other codes are unknown. The reason of each status is the phrase of the IANA registry in capitals, or that of one of the few listed codes the registry does not have; every registered final status code is known but 425.", "quantifier": "all methods, all strings, all 16-bit codes", "why_tests_cant": "The tests check one valid and one invalid code, and no reason.", "anchors": ["src/common/method.rs:Method", "src/common/status.rs:Status::from_code"]}
{"id": "C22", "title": "End of stream: closed versus error", "statement": "When a client closes the connection between requests the server closes silently; when it closes in the middle of a request the server answers 400 and closes.", "quantifier": "all received prefixes of a request and all read groupings and pauses", "why_tests_cant": "All prefixes and groupings.", "anchors": ["src/server/connection.rs:is_closed", "src/server/connection.rs:Connection::read_request", "src/parse/request.rs:RequestParser::has_data"]}
{"id": "C23", "title": "First matching listener wins", "statement": "Listeners are consulted in registration order; only those whose prefix matches the request URI are called; the first one that does not return Next decides the result and none after it is called; if none decides the result is Next.", "quantifier": "all routers, all listener behaviours (including stateful ones), all requests", "why_tests_cant": "All routing tables and listener functions.", "anchors": ["src/server/router.rs:Router::result_internal", "src/server/router.rs:Router::on_prefix"]}
{"id": "C24", "title": "Exact routes match exactly", "statement": "A listener registered with on(uri) is called if and only if the URI local to its router equals uri and no earlier listener decided.", "quantifier": "all routers and URIs", "why_tests_cant": "All strings.", "anchors": ["src/server/router.rs:Router::on"]}
{"id": "C25", "title": "Nested routers behave like one flat router", "statement": "Mounting a router under a prefix is equivalent to registering all its listeners, in order, at that position of the parent with the prefix prepended, each seeing the URI with the mount prefix removed; Next from the sub-router continues with the parent's later listeners.", "quantifier": "all routers, arbitrarily deep nesting, all requests, all listener behaviours", "why_tests_cant": "All nesting depths.", "anchors": ["src/server/router.rs:Router::route", "src/server/router.rs:Router::result_internal"]}
{"id": "C26", "title": "Stripping a mount prefix never panics", "statement": "Removing the mount prefix from the request URI always cuts at a character boundary within the string, so routing never panics, whatever the URI, including multi-byte characters.", "quantifier": "all URIs that are valid UTF-8 and all prefixes that are valid UTF-8", "why_tests_cant": "All Unicode strings.", "anchors": ["src/server/router.rs:Router::route"]}
{"id": "C27", "title": "The connection table is a map", "statement": "Under any sequence of insertions and removals the connection table behaves like a finite map: a key looked up gives the element inserted under it and not removed since, or nothing; insertion never overwrites a live element and never panics; removal of an absent key changes nothing.", "quantifier": "all operation sequences", "why_tests_cant": "All histories.", "anchors": ["src/server/slab.rs:Slab"]}
{"id": "C28", "title": "The predicted key is the key used", "statement": "The key announced by next_key is the key under which the next insertion stores its element, so events registered under that token reach that connection; keys of live connections are pairwise distinct and less than the number of connections that were ever simultaneously open.", "quantifier": "all operation sequences", "why_tests_cant": "All histories.", "anchors": ["src/server/slab.rs:Slab::next_key", "src/server/slab.rs:Slab::insert", "src/server/poll.rs:listen"]}
{"id": "C29", "title": "Events reach the right connection", "statement": "The event loop dispatches a readiness event only to the connection that is registered under the event's token at that time, never to a removed one, never treats the listening socket's token as a connection, and a failed registration leaves the table unchanged.", "quantifier": "all sequences of accept, register failure, readiness and hang-up events", "why_tests_cant": "All event histories, with token reuse.", "anchors": ["src/server/poll.rs:listen", "src/server/poll.rs:listen_until_blocked", "src/server/slab.rs:Slab"]}
{"id": "C30", "title": "Closed connections release their table slot", "statement": "Once a connection is over, whether closed by client or by the server, its slot in the connection table is reclaimed, so a long-running server's table does not grow with the number of connections served.", "quantifier": "all event histories", "why_tests_cant": "A resource bound over unbounded histories.", "anchors": ["src/server/poll.rs:listen", "src/server/server.rs:handle_io_ready_connection"]}
{"id": "C31", "title": "Written bytes arrive in order, once", "statement": "Whatever the socket does (partial writes, would-block, interruption), the bytes handed to the socket are a prefix of the bytes written by the server, in order, without duplication, and the remainder is what is still buffered.", "quantifier": "all sequences of writes and flushes, all socket schedules", "why_tests_cant": "All schedules of partial writes and would-block results.", "anchors": ["src/server/nonblocking_buf_writer.rs:NonBlockingBufWriter", "src/server/nonblocking_buf_writer.rs:write_until_blocked"]}
{"id": "C32", "title": "Buffered output drains", "statement": "A flush during which the socket accepts everything leaves the buffer empty and everything written has been handed to the socket; a flush stopped by would-block reports success and keeps exactly the unsent bytes for the next flush.", "quantifier": "all writer states and all socket schedules", "why_tests_cant": "All schedules.", "anchors": ["src/server/nonblocking_buf_writer.rs:NonBlockingBufWriter::flush", "src/server/nonblocking_buf_writer.rs:NonBlockingBufWriter::flush_buf"]}
{"id": "C33", "title": "A write never loses part of its data", "statement": "A successful write takes responsibility for all of its data: a short write by the socket is never reported to the caller as complete while the rest is dropped, so write_response, which ignores the count returned by write, loses nothing on a server connection.", "quantifier": "all data, all writer states, all socket schedules", "why_tests_cant": "All schedules.", "anchors": ["src/server/nonblocking_buf_writer.rs:Write::write", "src/server/server.rs:write_response"]}
{"id": "C34", "title": "One response per request, in order", "statement": "For a connection carrying any number of well-formed requests, the router is invoked exactly once per request in arrival order and the bytes written are exactly the responses to them, in the same order; a request nobody answers gets the fixed 404 response.", "quantifier": "all request sequences, all read groupings, all listeners (including stateful ones)", "why_tests_cant": "All pipelines and groupings.", "anchors": ["src/server/server.rs:respond_to_requests", "src/server/server.rs:write_response_from_router", "src/server/connection.rs:Connection::read_request"]}
{"id": "C35", "title": "A malformed request ends the connection with one 400", "statement": "After the first malformed request on a connection, the server writes exactly one 400 response after the responses to the preceding requests, closes, and neither parses nor answers anything after it.", "quantifier": "all sequences of well-formed requests followed by a malformed one and arbitrary bytes", "why_tests_cant": "All malformed inputs.", "anchors": ["src/server/server.rs:respond_to_requests", "src/server/server.rs:write_error_response"]}
{"id": "C36", "title": "When the server closes a connection", "statement": "After a response the server closes the connection if and only if the request had a Connection header with a value equal to 'close' or the response could not be written; otherwise it goes on with the next request on the same connection.", "quantifier": "all requests and all header combinations", "why_tests_cant": "All header values, including repeated ones and other capitalisation.", "anchors": ["src/server/server.rs:should_close_after_response", "src/server/server.rs:respond_to_requests"]}
{"id": "C37", "title": "Responses are delivered before the server closes", "statement": "When the server closes a connection after answering (Connection: close, client finished sending, or 400), the whole response has been handed to the socket before the connection is dropped.", "quantifier": "all responses and all socket schedules", "why_tests_cant": "Depends on where the socket stops accepting data.", "anchors": ["src/server/server.rs:handle_io_ready_connection", "src/server/server.rs:respond_to_requests", "src/server/nonblocking_buf_writer.rs:NonBlockingBufWriter"]}
{"id": "C38", "title": "Spurious wake-ups are harmless", "statement": "Handling a readiness event when there is nothing to read and the socket accepts nothing changes neither the connection's parse state nor what has been or will be sent, and handling events for an already closed connection does nothing.", "quantifier": "all connection states, any number of spurious events", "why_tests_cant": "All states and repetitions.", "anchors": ["src/server/server.rs:handle_io_ready_connection"]}
{"id": "C39", "title": "Serialised responses have the documented shape", "statement": "write_response emits exactly the status line HTTP/1.1 code reason, one line per header value, an empty line and the body, and nothing else; write_request likewise.", "quantifier": "all responses, requests and header iteration orders", "why_tests_cant": "All messages and orders.", "anchors": ["src/server/server.rs:write_response", "src/client/client.rs:write_request"]}
{"id": "C40", "title": "Every submitted job runs exactly once", "statement": "Each job given to the thread pool is started at most once, by one worker, in submission order, and, as long as workers keep running, every job submitted is eventually run; none is lost or duplicated.", "quantifier": "all numbers of workers, all job sequences, all interleavings", "why_tests_cant": "All thread schedules.", "anchors": ["src/util/thread_pool.rs:ThreadPool::execute", "src/util/thread_pool.rs:new_worker"]}
{"id": "C41", "title": "Dropping the pool waits for all jobs", "statement": "Dropping the thread pool returns only after every job submitted before has finished and every worker has stopped, and it does return (no deadlock) if every job does.", "quantifier": "all numbers of workers, all job sequences, all interleavings", "why_tests_cant": "All thread schedules.", "anchors": ["src/util/thread_pool.rs:Drop"]}
{"id": "C42", "title": "A panicking job does not disable the pool", "statement": "A job that panics does not prevent jobs submitted later from running.", "quantifier": "all job sequences with panicking jobs, all interleavings", "why_tests_cant": "All thread schedules.", "anchors": ["src/util/thread_pool.rs:new_worker", "src/util/thread_pool.rs:ThreadPool::execute"]}
{"id": "C43", "title": "A connection is handled by one thread at a time", "statement": "Two worker threads never process the same connection simultaneously, so responses of one connection are never interleaved and the result of any schedule is that of handling its readiness events one after the other.", "quantifier": "all numbers of workers, all event sequences, all interleavings", "why_tests_cant": "All thread schedules.", "anchors": ["src/server/server.rs:listen_abstract", "src/server/server.rs:handle_io_ready_connection"]}
{"id": "C44", "title": "No wake-up is lost", "statement": "With edge-triggered readiness notification, whenever unread data is waiting on an open connection, a notification, a queued job or a running handler that will still look at it exists; so every byte that arrives is eventually processed without needing further input.", "quantifier": "all interleavings of data arrival, event dispatch and worker execution", "why_tests_cant": "All schedules; a lost wake-up shows only in a rare interleaving.", "anchors": ["src/server/poll.rs:listen", "src/server/server.rs:listen_abstract", "src/server/server.rs:handle_io_ready_connection", "src/server/server.rs:respond_to_requests"]}
{"id": "C45", "title": "A client request is attempted at most twice", "statement": "One call of send writes the request at most twice, each attempt after the first on a freshly opened connection, opens at most two connections, and if the first attempt succeeds the request is written exactly once.", "quantifier": "all outcomes of connecting, writing and reading at each step", "why_tests_cant": "All combinations of failures.", "anchors": ["src/client/client.rs:Connection::send", "src/client/client.rs:send_request"]}
{"id": "C46", "title": "The response returned belongs to the request sent", "statement": "If every server answers each request it receives with one response in order, then the response returned by send is the response to the request passed to it, in every history of requests, failures and time-outs on the client.", "quantifier": "all histories of sends, failures and delays", "why_tests_cant": "All histories with failures at any step.", "anchors": ["src/client/client.rs:Connection::send", "src/client/client.rs:Connection::connect"]}
{"id": "C47", "title": "A client connection is used by one request at a time", "statement": "No two concurrent calls of send use the same connection at the same time, at most num_connections requests are in flight, and a call never waits while a connection is free and it keeps running.", "quantifier": "all numbers of threads and connections, all interleavings", "why_tests_cant": "All thread schedules.", "anchors": ["src/client/client.rs:Client::send"]}
{"id": "C48", "title": "Errors of send say what went wrong", "statement": "send returns Connecting only if opening a connection failed, and otherwise the error of the last attempt: Writing if sending failed, Reading if the stream failed or ended before a complete response, ResponseParsing with the parser's error if the response was malformed; a successful result is exactly the parsed response.", "quantifier": "all outcomes of connecting, writing and reading at each step", "why_tests_cant": "All combinations of failures.", "anchors": ["src/client/client.rs:RequestError", "src/client/client.rs:send_request", "src/client/client.rs:Connection::send"]}
{"id": "C49", "title": "Responses built from values describe their body", "statement": "A response created from a status, string or byte vector carries a Content-Length equal to its body length, and is read back unchanged by the client when the server sends it, for every body of at most half of 3 MiB.", "quantifier": "all statuses from the table, all strings and byte vectors", "why_tests_cant": "All bodies.", "anchors": ["src/common/response.rs:From<Status>", "src/common/response.rs:From<Vec<u8>>", "src/server/server.rs:write_response"]}
{"id": "C50", "title": "Unrouted requests are answered with a response the client can read", "statement": "If no listener answers a request, the client receives a 404 response for it without having to wait for the connection to be closed.", "quantifier": "all requests and routers without a matching listener", "why_tests_cant": "Requires composing server output with client parsing for all requests.", "anchors": ["src/server/server.rs:NOT_FOUND_RESPONSE", "src/parse/response.rs:ResponseParser", "src/parse/body.rs:BodyParser::new"]}
{"id": "C51", "title": "The example file server stays within its directory", "statement": "The file router serves only files located under its configured directory, whatever URI is requested.", "quantifier": "all request URIs", "why_tests_cant": "All URIs.", "anchors": ["src/main.rs:file_router", "src/main.rs:file_response"]}
{"id": "C52", "title": "The example file server's answers are stable", "statement": "Once a response for a path has been cached, every later request for that path gets that same response, with the content type determined by the path's extension, and requests for other paths do not change it.", "quantifier": "all histories of requests and file system changes", "why_tests_cant": "All histories.", "anchors": ["src/main.rs:file_router", "src/main.rs:get_content_type"]}
{"id": "C53", "title": "Events of one socket never touch another connection", "statement": "Readiness and hang-up events produced by one client's socket are never dispatched to, and never drop, the connection of another client.", "quantifier": "all histories of accepts, events, hang-ups and worker activity, with token reuse", "why_tests_cant": "Needs a token reused while a worker still holds the old connection; only a rare interleaving shows it.", "anchors": ["src/server/poll.rs:listen", "src/server/slab.rs:Slab", "src/server/server.rs:listen_abstract"]}
{"id": "C54", "title": "A client request is sent in order, once", "statement": "Whatever the stream does, a request written by the client puts on the wire exactly the bytes of the request in order and once if writing succeeds, and otherwise a beginning of them.", "quantifier": "all requests and all stream schedules (partial writes, interruption, errors)", "why_tests_cant": "All schedules of partial writes and errors.", "anchors": ["src/client/client.rs:write_request", "src/client/client.rs:Connection::connect"]}
{"id": "C55", "title": "A panic costs at most the worker it happens on", "statement": "A listener that panics on one request of one client ends at most one worker; requests of clients that do not make a listener panic never end a worker, so they cannot stop the server.", "quantifier": "all schedules of the server with several workers, all routers, all input", "why_tests_cant": "Needs several queued events of the same connection at the time of the panic, or input cut at the right places; only some interleavings show it.", "anchors": ["src/server/server.rs:handle_io_ready_connection", "src/util/thread_pool.rs:ThreadPool::execute"]}
{"id": "C56", "title": "The example file server serves files that were created later", "statement": "A file that exists when it is requested is served, whether or not it was requested before it existed.", "quantifier": "all histories of requests and file system changes", "why_tests_cant": "Depends on the history of requests and file changes.", "anchors": ["src/main.rs:file_router", "src/main.rs:file_response"]}
{"id": "C57", "title": "The client and the server of the library understand each other", "statement": "Requests sent one after the other through a client connection to a server of the same library come back as exactly the router's answers, in order; the router is asked each request exactly once and in order, however the bytes are cut on the way in either direction.", "quantifier": "all lists of requests and responses that can be written without loss, all routers, all cuts of both byte streams that do not split a character, all partial writes", "why_tests_cant": "Composes both parsers, both writers and the non-blocking handler; the places where bytes are cut and where writes stop are unbounded.", "anchors": ["src/client/client.rs:Client::send", "src/client/client.rs:Connection::send", "src/server/server.rs:handle_io_ready_connection", "src/server/connection.rs:Connection::read_request"]}
{"id": "C58", "title": "The two directions of a buffered stream do not interfere", "statement": "Whatever a raw stream does, the buffered stream built around it delivers exactly the bytes that the raw stream's reads delivered, in order, and hands to the raw stream's writes exactly the bytes written to it, in order; using one direction never loses, repeats or reorders bytes of the other.", "quantifier": "all raw streams (including ones whose reads write, such as TLS), all sequences of fill_buf, consume, read, write and flush", "why_tests_cant": "All interleavings of the two directions over all behaviours of the raw stream.", "anchors": ["src/util/stream.rs:with_buf_reader_and_writer", "src/util/stream.rs:ReadableWriter", "src/util/stream.rs:WriteableReader", "src/server/server.rs:new_buffered_stream", "src/server/nonblocking_buf_writer.rs:NonBlockingBufWriter"]}
{"id": "C59", "title": "Trouble with accepting connections does not stop the server", "statement": "Errors while accepting or registering new connections never keep the server from handling the events of the connections that are already open.", "quantifier": "all sequences of results of accept, all tables of connections, all events", "why_tests_cant": "Needs accept to fail persistently (no file descriptors left), an unbounded sequence of results.", "anchors": ["src/server/poll.rs:listen_until_blocked", "src/server/poll.rs:poll_events"]}
{"id": "C60", "title": "Client and server of the library understand each other on every schedule", "statement": "Whatever the schedule of event loop, workers and clients, and whatever happens on other connections: if what arrived on a connection is the beginning of the texts of some requests, cut in any way, then the router was asked about the first of these requests, each once and in order, and what was sent back is the beginning of its answers. So every call of the client's send that returns a response returns the server's answer to its own request.", "quantifier": "all schedules of the server, all numbers of workers and connections, all cuts of the streams in both directions, all histories of the client", "why_tests_cant": "All interleavings of a concurrent server together with all cuts of the streams.", "anchors": ["src/server/server.rs:listen_abstract", "src/server/server.rs:handle_io_ready_connection", "src/client/client.rs:Connection::send", "src/server/connection.rs:Connection::read_request"]}
{"id": "C61", "title": "The example program answers every request with the right page", "statement": "Whatever clients of the example program send, in whatever pieces and on every schedule, and as long as the files do not change: every request that is routed is answered with the secret message, or with the file its URI means (index.html for a directory), its length and its content type, or with the 404 message if there is no such file; cached or not. No worker ends because of a request. A client of this library gets exactly these pages.", "quantifier": "all file systems, all schedules of event loop and workers, all requests on all connections, all earlier contents of the caches, all histories of the client", "why_tests_cant": "All request sequences against all file trees on all schedules, with a cache in between.", "anchors": ["src/main.rs:main", "src/main.rs:file_router", "src/main.rs:file_response", "src/main.rs:get_content_type"]}
{"id": "C62", "title": "Every request is answered in the end", "statement": "If the operating system reports ready sockets, the event loop and the workers go on, clients do not send without end, and fewer handlers panic than there are workers, then every handler returns, and a client that sends whole requests and waits is answered: from some time on the router was asked about all its requests, each once and in order, and what the server has sent is exactly the answers, provided the socket takes what the server has to send.", "quantifier": "all infinite schedules of event loop, operating system and workers, all sequences of requests cut in any pieces, all routers, all other connections", "why_tests_cant": "It is about infinite schedules: no finite test can show that something happens eventually on every fair schedule, nor that no schedule loses the event that would have flushed the answer.", "anchors": ["src/server/server.rs:listen_abstract", "src/server/server.rs:handle_io_ready_connection", "src/server/server.rs:respond_to_requests", "src/server/poll.rs:listen", "src/server/nonblocking_buf_writer.rs:NonBlockingBufWriter", "src/util/thread_pool.rs:ThreadPool"]}
{"id": "C63", "title": "The server reads requests as RFC 9112 says", "statement": "What the server takes for one request is one request according to RFC 9112 (and the field rules of RFC 9110), with the method, target, fields and body that the RFC says it has; and what is a request according to the RFC is read as such. (False as stated: see the findings; proved for texts that avoid the listed deviations.)", "quantifier": "all byte sequences on a connection, in both build profiles, whatever follows", "why_tests_cant": "The claim compares the parser with an independent grammar over all texts; request smuggling hides in combinations of headers nobody thinks of testing.", "anchors": ["src/parse/request.rs:RequestParser", "src/parse/message.rs:MessageParser", "src/parse/headers.rs:HeadersParser", "src/parse/body.rs:BodyParser", "src/common/header.rs:HeaderMapOps"]}
{"id": "C64", "title": "What is written as one message is read as one message", "statement": "A request given to the client, once written, is read by the server as exactly that request: no part of its target, headers or body becomes another request; and a response of the server is read by the client as exactly that response. (False without conditions: nothing is escaped or checked. Proved for messages without line feeds and with a Content-Length that describes the body, without any limit on sizes; in particular for responses that reflect what was received.)", "quantifier": "all requests and responses, whatever follows on the connection, all orders of iterating the header map, both profiles", "why_tests_cant": "Injection depends on combinations of bytes in values, names, targets and bodies; absence of any splitting text is a universal statement over all messages and all following bytes.", "anchors": ["src/client/client.rs:write_request", "src/server/server.rs:write_response", "src/parse/request.rs:RequestParser", "src/parse/response.rs:ResponseParser"]}
{"id": "C65", "title": "The client reads responses as RFC 9112 says", "statement": "What the client takes for one response is one response according to RFC 9112, with the status, fields and body that the RFC says it has; and what is a response according to the RFC is read as such. (False as stated: see the findings; proved for texts that avoid the listed deviations.)", "quantifier": "all byte sequences on a connection, in both build profiles, whatever follows", "why_tests_cant": "The claim compares the parser with an independent grammar over all texts, including framings that the server of the library never produces.", "anchors": ["src/parse/response.rs:ResponseParser", "src/parse/message.rs:MessageParser", "src/parse/body.rs:BodyParser", "src/common/status.rs:Status"]}
{"id": "C66", "title": "A connection costs the server a bounded amount of memory", "statement": "What the server keeps for a connection (parser state, the request being handled, the output buffer) is bounded, and is no more than what was received and what is still to be sent. (False as stated: the output has no bound, what was already sent is kept while anything is unsent, and the size that is announced is allocated at once. Proved: input kept is at most what was received plus 3 MiB, with overflow checks at most 10 MiB; output kept is at most all answers given so far.)", "quantifier": "all reachable states of the whole server: any number of connections and workers, all schedules, all arriving bytes, all socket behaviours, all routers, both profiles", "why_tests_cant": "A bound on memory is about all traffic and all ways in which sockets block; leaks of this kind show only after long hostile traffic.", "anchors": ["src/server/nonblocking_buf_writer.rs:NonBlockingBufWriter", "src/parse/deframe/bytes.rs:BytesDeframer", "src/parse/request.rs:RequestParser", "src/server/connection.rs:Connection"]}
{"id": "C67", "title": "Over TLS the peers exchange exactly the plain text that they write, whole", "statement": "What reads of a TlsStream deliver is a beginning of the plain text that came after the handshake; what writes take is, in order and once, the plain text of the sealed messages, and these messages go to the TCP stream in order; nothing is written or read before the handshake is over; dropping the stream adds one close_notify behind everything, and nothing else ever seals one. Through the buffers of the client and the server the same holds for the messages of HTTP. (False: that what was written is sent before the stream is dropped, that a truncated response is noticed, and that a response which is ended by closing the stream can be read.)", "quantifier": "all sequences of reads, writes and flushes, all behaviours of the TCP stream below, all arriving records, any cipher", "why_tests_cant": "The tests use TLS only over localhost, where the TCP stream hardly ever blocks in the middle of a record and nobody cuts the connection.", "anchors": ["src/util/tls_stream.rs:TlsStream", "src/client/stream_factory.rs:TlsStreamFactory", "src/client/client.rs:Connection", "src/server/server.rs:listen_https"]}
{"id": "C68", "title": "Client and server do not wait for each other for ever", "statement": "A client of the library calls send again and again on one connection to a server of the library, sending each request when the answer to the one before has come. If the operating system reports ready sockets, the event loop and the workers go on and the socket takes what there is to send, then every call returns, with what the router answered to its request; the router is asked each request once and in order. The same with a client and a server that speak TLS. (False for requests that no listener takes: the answer 404 has no length, and the call never returns.)", "quantifier": "all fair infinite schedules, any number of other clients, all requests and responses that can be sent, all ways of cutting the bytes between characters, all routers with state, both profiles on both sides", "why_tests_cant": "A deadlock between the two sides depends on the schedule and on how the bytes are cut; a test that hangs on one schedule passes on others.", "anchors": ["src/client/client.rs:Connection", "src/server/server.rs:handle_io_ready_connection", "src/server/poll.rs:listen", "src/util/thread_pool.rs:ThreadPool", "src/server/server.rs:listen_https"]}
{"id": "C69", "title": "A connection keeps at most one worker busy", "statement": "At any time at most one worker is handling a given connection or waiting to, so that a slow request of one client leaves the other workers to the other clients.", "quantifier": "all states that the server can reach, any number of workers, all routers, both profiles", "why_tests_cant": "A test server with one client, or with a fast listener, never has two handlers for one connection at the same time; whether it happens depends on when pieces of input arrive.", "anchors": ["src/server/server.rs:handle_io_ready_connection", "src/server/server.rs:listen_abstract", "src/server/poll.rs:listen", "src/util/thread_pool.rs:ThreadPool"]}
{"id": "C70", "title": "A request is carried out once", "statement": "When a client of the library calls send once for a request and gets a response, the listeners of the server were asked about this request exactly once; in particular a POST request is never carried out twice.", "quantifier": "all histories of calls that returned responses, over any number of streams that end anywhere, joined to connections of a server in any reachable state, on any schedule, with any other clients; all requests that can be sent, all routers with state, both profiles on both sides", "why_tests_cant": "The request is repeated only when the stream breaks between the server's answer and its arrival; in a test on one machine it does not.", "anchors": ["src/client/client.rs:Connection", "src/server/server.rs:handle_io_ready_connection", "src/server/connection.rs:Connection"]}
{"id": "C71", "title": "HTTP over TLS and any other stream", "statement": "What holds of serving and sending over a stream whose two directions are independent holds over every stream, in particular over TLS, where reading may write and writing may read: the server seals nothing but the answers to the requests in the plain text that came, in order; the client gets the responses in the plain text that came, in order, and seals its requests completely; and a connection goes on as long as the peer does nothing to end it.", "quantifier": "all raw streams (any type, any behaviour of read, write and flush, any changes between uses) and so all TLS streams with any cipher, input and socket; all sequences of handler invocations and of requests; all routers with state and both profiles", "why_tests_cant": "The interplay of the TLS session's input and output with the buffers depends on where records and blocked writes fall; tests use plain streams in memory that never block while reading.", "anchors": ["src/util/stream.rs:with_buf_reader_and_writer", "src/util/tls_stream.rs:TlsStream", "src/server/server.rs:handle_io_ready_connection", "src/client/client.rs:Connection"]}
{"id": "C72", "title": "Signals make no difference", "statement": "A read that is interrupted by a signal changes nothing: the parsers produce the same message, the server sends the same bytes, leaves the listeners in the same state and keeps the connection or not, and the client returns the same result and writes the request as often, as if the read had not been interrupted.", "quantifier": "all input scripts with interruptions at any points, all messages before and after them, both profiles; for the server all routers with state, connections, parse states and sockets", "why_tests_cant": "ErrorKind::Interrupted comes from the operating system at arbitrary moments; no test makes a read report it, and where it falls (head, chunk line, sized body, body until the end) decides what happens.", "anchors": ["src/parse/deframe/bytes.rs:BytesDeframer", "src/parse/deframe/line.rs:LineDeframer", "src/server/server.rs:respond_to_requests", "src/client/client.rs:Connection"]}
{"id": "C73", "title": "Starting and stopping the server", "statement": "listen_http, given an address, threads and an operating system that lets it bind, serves for ever; a signal does not stop it. If the operating system reports an error it returns this error, and when it has returned, every handler that was submitted has run to its end, every thread has ended, every connection is closed, and the requests that had been noticed were answered.", "quantifier": "all schedules of clients, event loop, workers and the thread that drops the pool, all moments at which poll fails, all errors, all numbers of workers, all routers with state and both profiles; for the claims that it ends, all fair runs", "why_tests_cant": "No test runs the event loop, and none lets poll fail; what is answered and dropped at the end depends on the interleaving of the workers with the drop of table and pool.", "anchors": ["src/server/server.rs:listen_abstract", "src/server/poll.rs:poll_events", "src/server/poll.rs:listen", "src/util/thread_pool.rs:ThreadPool"]}
{"id": "C74", "title": "Connections persist as RFC 9112 says", "statement": "After a request the server keeps the connection open if, by RFC 9112 9.3, it persists (HTTP/1.1 without the connection option close, HTTP/1.0 with keep-alive), and closes it after the answer otherwise; the client sends no request on a connection after an answer with the option close.", "quantifier": "all sequences of plain requests of both versions, all their fields, all safe cuts of the input into arrivals, all routers with state, both profiles", "why_tests_cant": "The one test of closing uses the exact text `Connection: close` and HTTP/1.1; the rule is about every list of options in any case, and both versions.", "anchors": ["src/server/server.rs:should_close_after_response", "src/common/header.rs:HeaderMapOps", "src/parse/request.rs:RequestParser", "src/client/client.rs:send_request"]}
{"id": "C75", "title": "Making a client", "statement": "new_http and new_https make a client for every address and timeout with a positive number of connections; the sessions of an HTTPS client ask for the certificate of the host in the address; a client that was made can be used.", "quantifier": "all addresses (as text), timeouts, numbers of connections, and all behaviours of connecting", "why_tests_cant": "The tests use one host name; which of all texts are accepted is a language, and what a zero timeout does shows only when a request is sent.", "anchors": ["src/client/stream_factory.rs:TlsStreamFactory", "src/client/stream_factory.rs:TcpStreamFactory", "src/client/config.rs:Config", "src/client/client.rs:Client"]}
{"id": "C76", "title": "Reconnecting over streams of any kind", "statement": "A connection of the client over streams of any kind, also TLS, with its reconnecting, behaves as over plain scripted streams: each call of send returns the answer to its own request, what is sent on each stream is the requests given to it one after the other, no request is given to more than two streams per call; over TLS the sealed messages carry exactly this, no close_notify is sealed on a stream in use, and one that is given up for another has sealed exactly one, after all this.", "quantifier": "all kinds of streams whose reads and writes keep their contract, all factories, all sequences of requests, everything the streams do during and between the calls", "why_tests_cant": "The tests of the client use a mock stream whose reading and writing halves are separate; the program shares one buffered stream, and over TLS a write can also be answered by a read of the session.", "anchors": ["src/client/client.rs:Connection", "src/client/client.rs:send_request", "src/client/stream_factory.rs:StreamFactory", "src/util/stream.rs:Stream", "src/util/tls_stream.rs:TlsStream"]}
{"id": "C77", "title": "No request is left lying on a connection that is kept", "statement": "A handler of the server keeps its connection only because the stream, asked for more, said WouldBlock, as the last thing done with it, and with nothing left in the buffers between stream and parser; so all requests that had come whole were given to the router and their answers written, held, or, over TLS, sealed. Over TLS the only other case is that the session has something to send that the TCP stream does not take.", "quantifier": "all kinds of raw streams and TLS sessions, all routers, all sequences of calls of the handler, everything the stream does between them", "why_tests_cant": "The poll is edge-triggered: bytes left behind in a buffer would lie there until something else arrives, which shows only as a hang for some cuts of the input; over TLS three layers buffer.", "anchors": ["src/server/server.rs:respond_to_requests", "src/server/connection.rs:read_request", "src/server/poll.rs:listen", "src/util/stream.rs:with_buf_reader_and_writer", "src/util/tls_stream.rs:TlsStream"]}
{"id": "C78", "title": "The server over TLS, or any other streams, as a whole", "statement": "Whatever a server does whose connections run over streams of any kind, with an event loop, any number of workers and any interleaving with its clients, a server over scripted plain streams can do as well; so one worker at a time uses a connection, the listeners see one order of requests, only listeners and debug parsers end workers, memory per connection is bounded, and each client gets the answers to its own requests, in order. Of a server started with listen_https: what a connection has read is a beginning of the plain text of what arrived at its own socket, what its socket sent is the sealing of its own session and the answers to its own requests, no request that was read whole is left lying, and a connection that a handler does not put back has its session closed: exactly one close_notify is sealed, after all that the server has written, and none on a connection that is kept.", "quantifier": "all kinds of raw streams, all TLS sessions, all routers, all numbers of workers and connections, all schedules, everything the streams do", "why_tests_cant": "It ranges over all interleavings of event loop, workers and clients together with everything a stream and a TLS session can do; the project has no test of the server over TLS.", "anchors": ["src/server/server.rs:listen_https", "src/server/server.rs:listen_abstract", "src/server/server.rs:respond_to_requests", "src/server/poll.rs:listen", "src/util/tls_stream.rs:TlsStream", "src/util/stream.rs:with_buf_reader_and_writer", "src/util/thread_pool.rs:execute"]}
{"id": "C79", "title": "A client that never finishes its request is cut off", "statement": "If what a client sends goes on and on without ever being a whole request - a first line, a header section, a header value, chunks or a body without end - then the server stops reading after a bounded number of bytes, sends one 400 response and closes the connection, whether the bytes come at once or with pauses.", "quantifier": "All texts, all followed by anything, all routers, all earlier requests on the connection, all groupings into reads, both build profiles; with pauses: all first lines, and with overflow checks all ASCII texts; for the whole server, plain and over TLS: all first lines of ASCII characters on every schedule; all repeated header lines whose length divides 4096 or 4095, all repeated chunks whose size divides 3 MiB or one less, and the texts of the tests but infinite_chunked_body; for all ASCII texts on every schedule, how much of an unfinished request a server that keeps the connection open may have (bounds after the first line with overflow checks only).", "why_tests_cant": "The integration tests infinite_connection, infinite_connection_with_sleeps, infinite_headers, infinite_header_value, infinite_chunked_body and insanely_huge_body send one text each, with whatever pauses the machine happens to make.", "anchors": ["tests/http_server.rs:infinite_connection", "tests/http_server.rs:infinite_connection_with_sleeps", "tests/http_server.rs:infinite_chunked_body", "tests/http_server.rs:insanely_huge_body", "tests/http_server.rs:infinite_header_value", "tests/http_server.rs:infinite_headers", "src/parse/error_take.rs:ErrorTake", "src/parse/crlf_line.rs:CrlfLineParser", "src/parse/headers.rs:HeadersParser", "src/parse/body.rs:ChunksParser", "src/server/server.rs:respond_to_requests"]}
{"id": "C80", "title": "Over streams of any kind and over TLS, what arrives is read in the end and answered", "statement": "If the socket of a connection is ready, then the server in the end reads its stream until there is nothing more to read, or closes the connection. Over TLS, if a client has done the handshake and sent some requests, none of which asks for the connection to be closed, and no listener panics, then the connection stays open and in the end each of the requests is answered, in order. If the socket takes more whenever something is written to it, then the session and the writer have nothing left whenever no handler uses the connection, and all answers are sent.", "quantifier": "All fair runs of the whole server, with any number of connections, workers and handler panics below the number of workers, all streams and all ciphers, all groupings into records and reads, whatever the other clients and their sockets do, both build profiles.", "why_tests_cant": "The integration tests of the HTTPS server run on one schedule per run of the test, and cannot tell a slow answer from a lost wake-up; what matters is every interleaving of the event loop, the workers and the sockets.", "anchors": ["src/server/server.rs:listen_https", "src/server/server.rs:handle_io_ready_connection", "src/server/server.rs:respond_to_requests", "src/server/poll.rs:listen", "src/util/tls_stream.rs:TlsStream", "src/util/thread_pool.rs:execute"]}
{"id": "C81", "title": "Every request that a listener sees was sent on its connection, and no byte counts twice", "statement": "The requests of a connection that listeners are asked about are made of bytes that were sent on this very connection: their texts appear in what was sent, in the order in which the listeners were asked, and no byte belongs to two of them. So a client that does not speak TLS reaches no listener of a server started with `listen_https`.", "quantifier": "All reachable states of the whole server, for all schedules, numbers of connections and workers, ways to cut what arrives, errors, panics of listeners, streams of any kind, ciphers, both build profiles.", "why_tests_cant": "The test `normal_http_message` of the HTTPS server checks one client on one schedule; mixing up connections or reading a byte twice depends on the schedule, on the sizes of the reads and on what other clients send.", "anchors": ["src/server/server.rs:respond_to_requests", "src/server/server.rs:handle_io_ready_connection", "src/server/connection.rs:read_request", "src/server/connection.rs:is_closed", "src/util/tls_stream.rs:TlsStream"]}
{"id": "C82", "title": "What the integration tests of the server check holds on every schedule", "statement": "With the router of the integration tests: a client that sends its requests one after the other, and before each next one reads as many bytes as the expected response has, is sent exactly the expected responses, all of them in the end and nothing else at any time, whatever other clients do and however the work is scheduled. The same over TLS, for the clients of the tests of the HTTPS server: the expected responses are sealed and sent, all in the end and nothing else at any time.", "quantifier": "All lists of messages with one response for each request, all sequences of requests from them, all schedules, numbers of connections and workers, ways to cut what arrives and what is taken by the socket, behaviours of the other clients, both build profiles.", "why_tests_cant": "The integration tests run a few lists of messages, each on the one schedule and with the one way of cutting the streams that happen to occur on the machine; that a response is late, lost or sent to another client may depend on a rare schedule.", "anchors": ["tests/util/test_server.rs:get_router", "tests/util/test_server.rs:test_server", "src/server/server.rs:respond_to_requests", "src/server/server.rs:write_response", "src/client/client.rs:write_request", "src/server/router.rs:result", "tests/util/test_server.rs:test_server_with_curl", "tests/https_server.rs:curl_multiple_concurrent_connections_with_many_requests", "src/server/server.rs:listen_https"]}
{"id": "C83", "title": "An HTTPS client and an HTTPS server of the library understand each other on every schedule", "statement": "A client made with new_https has called send any number of times, on any number of streams one after the other. On each stream whose TLS session is joined to that of a connection of a server started with listen_https, the calls that used this stream returned, in order, what the router of the server answered when it was asked about the requests of this connection, whatever the schedule of event loop and workers, whatever the other connections do, and however the reads and writes of both TCP streams are cut. The same holds over streams of any other kind, which may be different at the two ends.", "quantifier": "all histories of the client, all schedules of the server, all numbers of workers and connections, all cuts of the streams in both directions, all ciphers and record boundaries", "why_tests_cant": "The tests over TLS use curl or a public site at the other end, never the client and the server of the library together; and a test takes one schedule and one cut of the streams.", "anchors": ["src/client/client.rs:Client::new_https", "src/client/client.rs:Connection", "src/client/stream_factory.rs:TlsStreamFactory", "src/server/server.rs:listen_https", "src/server/server.rs:handle_io_ready_connection", "src/util/tls_stream.rs:TlsStream"]}
{"id": "C84", "title": "Threads that share an HTTPS client each get the answer to their own request", "statement": "Threads call send on one client, made with new_https or over streams of any other kind, in any interleaving. No two of them use the same connection at the same time, at most num_connections requests are in flight, and each connection is as if the calls on it had been made one after the other. So if the servers answer the requests on each stream in order, every call returns to its thread the answer to its own request; if the other end is a server of this library, on any schedule, that is the answer of its router. Every stream is a TLS session of its own. A call whose thread keeps running gets a connection when one is free.", "quantifier": "all interleavings of any number of threads, all numbers of connections, all states of the stream factory at each call, all streams, all schedules of the server", "why_tests_cant": "The tests of the shared client take one interleaving and cannot tell apart the responses of different threads, because all requests are the same.", "anchors": ["src/client/client.rs:Client::send", "src/client/client.rs:Client::new_https", "src/client/client.rs:Connection", "src/client/stream_factory.rs:TlsStreamFactory"]}
{"id": "C85", "title": "Connections that should end are closed in the end", "statement": "If the client asks for the connection to be closed, or sends something that is no request, or its stream ends or fails or it hangs up, then the server closes the connection after a finite time and for good, whatever other clients do; in the first two cases after exactly the answers to the requests up to that point, and a response 400 in the second. The same for the end and the failure of the stream and for a client that hangs up over streams of any kind; over TLS the same for all of these, where in the first two cases the answers are followed by one close_notify, and also for bytes that are not valid TLS, in the handshake or later; a connection that is open and not in use has never seen any of these. A connection is dropped with the last thing that holds it, is never used after that, and then over TLS seals exactly one close_notify, after everything that was written. If the socket takes more whenever something is written to it, all that was written on the connection, and the close_notify, is sent before it is closed.", "quantifier": "All schedules on which operating system, event loop and workers go on, all numbers of connections and workers, requests, ways to cut what arrives, texts after the deciding one, behaviours of the other clients, kinds of streams, ciphers, both build profiles.", "why_tests_cant": "A connection that is never closed shows only as a leak over a long time or under load; whether the last event of a connection is noticed depends on how it coincides with the work of a handler on the same connection.", "anchors": ["src/server/server.rs:respond_to_requests", "src/server/poll.rs:listen", "src/server/server.rs:should_close_after_response", "src/util/thread_pool.rs:execute", "src/util/tls_stream.rs:TlsStream", "src/server/server.rs:listen_https", "src/server/server.rs:listen_abstract"]}
{"id": "C86", "title": "A server can make the client read only a bounded amount", "statement": "Over streams of any kind (also TLS), for any requests sent one after the other or by threads that share the client, however the calls end and whatever the servers send: on each stream the client reads, for each attempt it made there, at most 512 + 4096 + 3 MiB bytes (a first line, a header section and a body of the sizes that are allowed), and at most one buffer of 8 KiB ahead of that; and since no call makes more than two attempts, for each call at most twice this sum from all servers together. A server that sends without end is cut off: how the attempt ends is settled by the first 512 + 4096 + 3 MiB bytes, whatever follows, and it is a response, the error that a limit was reached, or an error of parsing. Between calls a connection holds at most 8 KiB that it has read ahead and at most 8 KiB that it has not sent.", "quantifier": "all servers (all that can arrive on any stream, with any errors and in any pieces), all factories, all sequences of calls, all schedules of the threads that share a client, both build profiles", "why_tests_cant": "The bound is about the worst of all servers, also after any history of failed calls and reconnects, and a server without end cannot be written down as a test input.", "anchors": ["src/client/client.rs:send_request", "src/client/client.rs:connect", "src/parse/error_take.rs:ErrorTake", "src/parse/message.rs:parse", "src/parse/headers.rs:MAX_HEADERS_SIZE", "src/parse/body.rs:MAX_BODY_SIZE", "src/parse/crlf_line.rs:MAX_LINE_SIZE"]}
{"id": "C87", "title": "The work that waits for the workers is bounded", "statement": "However long the listeners take, the number of jobs that wait in the queue of the thread pool is bounded by the number of connections: a connection for which a job waits needs no second one. (This does not hold. Each event of a connection submits another job. While the listeners are busy with one request of a client, and the other workers are blocked at the mutex of the same connection, single bytes of the client fill the queue with any number of jobs for this one connection, whatever the number of workers. Proved instead: no more jobs wait than were submitted, and for each connection no more were submitted than the operating system had reasons to report it: one when it was opened, one for each arrival, one each time it became writable.)", "quantifier": "all schedules, all numbers of workers, all routers, all requests within the limits; for the bound: all runs in which each call of poll returns a connection at most once and no token of a closed connection is taken for a new one", "why_tests_cant": "The queue is a channel without a bound inside the pool; a test can not see its length, and any number of jobs that a test reaches is finite.", "anchors": ["src/server/server.rs:listen_abstract", "src/util/thread_pool.rs:execute", "src/util/thread_pool.rs:new_worker", "src/server/poll.rs:listen"]}
{"id": "C88", "title": "What a client is sent depends on nothing but what it sends", "statement": "Where the answers of the listeners depend only on the request: what is sent to a client is determined by the bytes the client sends. It depends neither on the other clients, nor on the number of workers, nor on the schedule, nor on how the network cuts the bytes into pieces, nor on the build profile. (This does not hold of all bytes: a server without listeners answers 404 or 400 to the same bytes, depending on whether a worker looks at the connection while half a letter has arrived; and a request whose header section goes a little over its limit is answered in release builds, while a debug build loses a worker and answers nothing. Proved instead: for requests within the limits that are not cut inside a character, there is one text that depends only on the listeners and the requests, of which everything that is ever sent to such a client on any such server is a beginning; the same decrypted over TLS; and of what any two such clients are sent, one is a beginning of the other.)", "quantifier": "all routers whose answers do not depend on their state, all sequences of requests within the limits, all pairs of reachable states of servers with that router: all schedules, all numbers of workers, all other clients, both build profiles, all cuts at characters", "why_tests_cant": "It compares every two executions of the server with each other, not one execution with an expected result.", "anchors": ["src/server/server.rs:listen_abstract", "src/server/server.rs:listen_http", "src/server/server.rs:listen_https", "src/util/thread_pool.rs:execute", "src/server/poll.rs:listen"]}
{"id": "C89", "title": "A limited reader passes on exactly the bytes up to its limits", "statement": "Whatever is done with a reader under any number of error_take limits - reads into destinations of any size, looking at the buffer and using some of it, going on after errors - the bytes delivered are the next bytes of the stream in order, none left out and none twice; the stream is left right behind them; in total they are at most as many as each of the limits. Once as many were delivered as one of the limits allows, everything fails with \"read limit reached\" (even if the stream ends exactly there) and nothing more is taken from the stream; not before. As long as less is asked for than each of the limits allows, the results are the same as without the limits.", "quantifier": "all sequences of operations, all stacks of limits, all buffer sizes, all buffered bytes, all scripts of bytes, ends of stream and errors", "why_tests_cant": "The one test reads from one endless stream under one limit; this is about every sequence of operations on every stream, under several limits at once.", "anchors": ["src/parse/error_take.rs:error_take", "src/parse/error_take.rs:check_limit", "src/parse/error_take.rs:read", "src/parse/error_take.rs:fill_buf", "src/parse/error_take.rs:consume"]}
