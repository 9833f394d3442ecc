#!/usr/bin/env python3
"""Prints the wrong edits of the model that `seed.py` tries, one JSON object per line."""
import json, sys

M = 'Verif/Model/'
out = []

def m(id, file, definition, old, new, edit, claim):
    out.append(dict(id=id, file=M + file, definition=definition, old=old, new=new, edit=edit, claim=claim))

# the buffered stream
m('buf-01', 'BufStream.lean', 'BufR.read', 'if s.buf = [] ∧ s.cap ≤ n then', 'if s.cap ≤ n then',
  'large reads bypass a buffer that is not empty', 'C58: reads deliver the bytes in order')
m('buf-02', 'BufStream.lean', 'BufR.fillBuf', '| (.ok b, t) => (.ok b, { s with buf := b, inner := t })', '| (.ok b, t) => (.ok b, { s with buf := [], inner := t })',
  'what was read is returned but not kept', 'C58: reads deliver all bytes')
m('buf-03', 'BufStream.lean', 'BufR.fillBuf', '  if s.buf = [] then\n    match RawIO.read s.inner s.cap with', '  if s.buf.length < s.cap then\n    match RawIO.read s.inner s.cap with',
  'filling a buffer that is not empty overwrites it', 'C58: reads lose nothing')
m('buf-04', 'BufStream.lean', 'writeUntilBlocked', 'writeUntilBlocked f r w (b.drop n) (pos + n)', 'writeUntilBlocked f r w b (pos + n)',
  'the same bytes are written again after a partial write', 'C58: writes hand over the bytes once')
m('buf-05', 'BufStream.lean', 'NbWriter.flushBuf', '(w.buf.drop w.pos) 0).map', 'w.buf 0).map',
  'a second flush begins from the start of the buffer', 'C58: writes hand over the bytes once')
m('buf-06', 'BufStream.lean', 'NbWriter.write', '{ w with inner := t }.push (data.drop amount))', '{ w with inner := t })',
  'the rest of a large piece is not kept when the stream blocks', 'C58: writes lose nothing (only pieces of at most 4096 bytes are covered, so this one is about C31)')
m('buf-07', 'BufStream.lean', 'StdWriter.write', 'if data.length ≥ w.cap then (Wr.write f w.inner data)', 'if data.length ≥ w.cap / 2 then (Wr.write f w.inner data)',
  'large pieces bypass a buffer that may still hold something', 'C58: writes keep the order')
m('buf-08', 'BufStream.lean', 'StdWriter.flushBuf', 'if e = .interrupted then flushBuf f r { w with inner := t } else', 'if e = .interrupted then flushBuf f r { w with inner := t, buf := [] } else',
  'an interrupted write loses the buffer', 'C58: writes lose nothing')
m('buf-09', 'BufStream.lean', 'instance Wr (WriteableReader R)', 'write f s b := (Wr.write f (InnerMut.inner s.val) b).map fun x => (x.1, ⟨InnerMut.put s.val x.2⟩)', 'write f s b := (Wr.write f (InnerMut.inner s.val) b).map fun x => (x.1, s)',
  'what writing does to the raw stream is forgotten', 'C58: the two directions share one raw stream')
m('buf-10', 'BufStream.lean', 'instance BufRead (ReadableWriter W)', 'consume s n := ⟨InnerMut.put s.val (BufRead.consume (InnerMut.inner s.val) n)⟩', 'consume s _ := s',
  'consume has no effect', 'C58: reads deliver each byte once')
m('buf-11', 'BufStream.lean', 'ServerStack.new', '⟨⟨[], 0, 4096, grow, ⟨⟨4096, [], t⟩⟩⟩⟩', '⟨⟨[], 0, 1024, grow, ⟨⟨4096, [], t⟩⟩⟩⟩',
  'smaller buffer for writing', 'C58: pieces of up to 4096 bytes are written in order')

# the accept loop
m('accept-01', 'AcceptLoop.lean', 'acceptLoop', '| .got .err => acceptLoop rs f (i + 1) s', '| .got .err => some (some s)',
  'the loop ends at the first error of accept', 'C59: an error that persists keeps the loop busy for ever; after an error the loop goes on')
m('accept-02', 'AcceptLoop.lean', 'acceptLoop', '| .got (.ok _ false) => acceptLoop rs f (i + 1) s', '| .got (.ok _ false) => some (some s)',
  'the loop ends when a stream can not be registered', 'C59: all waiting connections are taken')

# TLS
m('tls-01', 'Tls.lean', 'TlsStream.pushOut', 'pushOut fl es (sent ++ b.take k) (b.drop k)', 'pushOut fl es (sent ++ b.take k) b',
  'bytes of records are sent again after a partial write', 'C67: the TCP stream gets the sealed messages, once')
m('tls-02', 'Tls.lean', 'TlsStream.pushOut', '| .err e :: es, sent, b, _ => (.error e, ⟨es, fl, sent⟩, b)', '| .err e :: es, sent, _, _ => (.error e, ⟨es, fl, sent⟩, [])',
  'an error drops what waits', 'C67: the TCP stream gets the sealed messages, all of them')
m('tls-03', 'Tls.lean', 'TlsStream.write', '  match t.completePriorIo with\n  | (.error e, t) => (.error e, t)\n  | (.ok (), t) => (.ok b.length,', '  match t.completePriorIo with\n  | (_, t) => (.ok b.length,',
  'write goes on when the handshake fails or is not over', 'C67_no_early_data: nothing is written before the handshake is over')
m('tls-04', 'Tls.lean', 'TlsStream.drop', '(flush { t with sess := t.sess.sendCloseNotify }).2', '(flush t).2',
  'no close_notify', 'C67_drop: dropping adds a close_notify')
m('tls-05', 'Tls.lean', 'TlsStream.drop', '(flush { t with sess := t.sess.sendCloseNotify }).2', '{ t with sess := t.sess.sendCloseNotify }',
  'no flush after the close_notify', 'C67_drop: the close_notify is sent if the socket takes it')
m('tls-06', 'Tls.lean', 'TlsSession.take', 'plain := if h then s.plain else s.plain ++ plain', 'plain := if h then s.plain else plain',
  'plain text that was not read yet is overwritten', 'C67: reads deliver all plain text')
m('tls-07', 'Tls.lean', 'TlsSession.take', 'plain := if h then s.plain else s.plain ++ plain, came', 'plain := s.plain ++ plain, came',
  'plain text is taken before the handshake is over', 'C67_no_early_data: nothing is read before the handshake is over')
m('tls-08', 'Tls.lean', 'TlsSession.read', 'if s.plain = [] ∧ s.peerEof then', 'if s.peerEof then',
  'a close_notify drops what was not read', 'C67_script: data that came before a close_notify is delivered')
m('tls-09', 'Tls.lean', 'TlsSession.read', 'if s.plain = [] ∧ s.peerEof then (.error .connectionAborted, s)', 'if s.plain = [] ∧ s.peerEof then (.ok [], s)',
  'a close_notify is a plain end of stream (as in later versions of rustls)', 'C67_closed_false: close-delimited responses can not be read')
m('tls-10', 'Tls.lean', 'TlsStream.lastGasp', '{ t with sess := { t.sess with out := t.sess.out.drop n }, sock }', '{ t with sock }',
  'the part of an alert that was sent stays queued', 'C67: the TCP stream gets the sealed messages, once')
m('tls-11', 'Tls.lean', 'TlsStream.completeLoop', 'if untilDone && t.sess.handshaking then (.error .unexpectedEof, t) else (.ok didRead, t)', '(.error .unexpectedEof, t)',
  'the end of the TCP stream without close_notify is an error (as in later versions of rustls)', 'C67_truncated_false: truncation is not noticed')
m('tls-12', 'Tls.lean', 'TlsSession.write', 'if b = [] then s else s.send (.data b)', 's',
  'write takes the data and drops it', 'C67: what writes take is the plain text of the sealed messages')

# the routes of the example program
m('site-01', 'FileServer.lean', 'mainRouter', 'b!"29"', 'b!"30"', 'wrong content length of the secret message', 'C61: the secret message is answered')
m('site-02', 'FileServer.lean', 'mainRouter', 'b!"/my/middleton/website/" (fileRouter 0', 'b!"/my/middleton/website" (fileRouter 0',
  'route without the last slash', 'C61: the file that the URI means')

# parsing
m('parse-01', 'Parse.lean', 'readLine', 'if utf8Valid b then (o, line ++ b, r)', 'if true then (o, line ++ b, r)',
  'lines are not checked to be UTF-8', 'C03: the texts of an accepted request are valid UTF-8')
m('parse-02', 'Parse.lean', 'LineDeframer.parse', 'if c = [LF] then (.done rest, r) else (.io rest .unexpectedEof, r)', '(.done rest, r)',
  'a line cut off by the end of the stream counts as a line', 'C11: a truncated request is never delivered')
m('parse-03', 'Parse.lean', 'maxLineSize', 'def maxLineSize : Nat := 512', 'def maxLineSize : Nat := 513',
  'limit off by one', 'C12: lines are limited to 512 bytes')
m('parse-04', 'Parse.lean', 'parseCrlfLine', 'if c = [CR] then .ok rest else .error .badSyntax', 'if c = [CR] then .ok rest else .ok line',
  'a bare line feed ends a line', 'C03: lines of accepted requests end in CR LF')
m('parse-05', 'Parse.lean', 'CrlfLineParser.parse', 'match prof.sub maxLineSize line.length with', 'match prof.sub maxLineSize 0 with',
  'a resumed line gets a fresh budget', 'C12: lines are limited to 512 bytes, however they are split')
m('parse-06', 'Parse.lean', 'CrlfLineParser.parse', '(if e = .invalidData then .perr .invalidUtf8 else .io s e, pop r)', '(.io s e, pop r)',
  'invalid UTF-8 is reported as an IO error', 'C20: errors of request lines')
m('parse-07', 'Parse.lean', 'maxHeadersSize', 'def maxHeadersSize : Nat := 4096', 'def maxHeadersSize : Nat := 8192',
  'limit doubled', 'C13: the header section is limited to 4096 bytes')
m('parse-08', 'Parse.lean', 'parseHeader', 'match splitOnce b!": " raw with', 'match splitOnce b!":" raw with',
  'header lines are split at the colon, the space stays in the value', 'C03, C06: header values are reported faithfully')
m('parse-09', 'Parse.lean', 'HeadersParser.loop', '⟨[], p.headers.addHeader h v, p.read + line.length⟩', '⟨[], p.headers.addHeader h v, p.read⟩',
  'the bytes of parsed header lines are not counted', 'C13: the header section is limited, however it is split')
m('parse-10', 'Parse.lean', 'HeadersParser.loop', 'p.headers.addHeader h v, p.read', '(if (p.headers.get h).isSome then p.headers else p.headers.addHeader h v), p.read',
  'only the first value of a repeated header is kept', 'C03: all header lines are reported')
m('parse-11', 'Parse.lean', 'HeadersParser.loop', '| (.io inner e, r) => (.io { p with inner } e, r)', '| (.io inner e, r) => (.io { p with inner := [] } e, r)',
  'the part of a header line read before a pause is lost', 'C02: pausing and resuming does not matter')
m('parse-12', 'Parse.lean', 'maxBodySize', 'def maxBodySize : Nat := 3 * 1024 * 1024', 'def maxBodySize : Nat := 4 * 1024 * 1024',
  'limit raised', 'C14: bodies are limited to 3 MiB')
m('parse-13', 'Parse.lean', 'BytesDeframer.parse', 'match readInto p.size p.filled r with', 'match readInto (p.size - 1) p.filled r with',
  'one byte less than the content length is read', 'C03, C05: the body is exactly what the header says')
m('parse-14', 'Parse.lean', 'BytesDeframer.parse', '(.io ⟨p.size, d⟩ e, r)', '(.io ⟨p.size, p.filled⟩ e, r)',
  'the bytes of a body read before a pause are lost', 'C02: pausing and resuming does not matter')
m('parse-15', 'Parse.lean', 'parseChunkSize', 'parseUnsigned 16 usizeBound raw', 'parseUnsigned 10 usizeBound raw',
  'chunk sizes are decimal', 'C08: chunked bodies decode to the concatenation of their chunks')
m('parse-16', 'Parse.lean', 'parseChunkSize', 'if n > maxBodySize then .error .invalidChunkSize else .ok n', '.ok n',
  'no limit for chunk sizes', 'C14: bodies are limited')
m('parse-17', 'Parse.lean', 'dataState', '.done (.tailingCrlf [] d.isEmpty, body ++ d)', '.done (.tailingCrlf [] d.isEmpty, d ++ body)',
  'chunks are put together in reverse', 'C08: chunked bodies decode to the concatenation of their chunks')
m('parse-18', 'Parse.lean', 'dataState', '.done (.tailingCrlf [] d.isEmpty, body ++ d)', '.done (if d.isEmpty then .finished else .tailingCrlf [] false, body ++ d)',
  'the CR LF after the last chunk is left in the stream', 'C05, C08: a message consumes exactly its own bytes')
m('parse-19', 'Parse.lean', 'tailingCrlfState', 'if line ≠ [] then .perr .badSyntax', 'if False then .perr .badSyntax',
  'anything may stand after a chunk', 'C09: only correctly framed chunked bodies are accepted')
m('parse-20', 'Parse.lean', 'isChunkedTransferEncoding', 'containsStr v b!"chunked"', 'decide (v = b!"chunked")',
  'the transfer encoding must be exactly chunked', 'C10: which framing a body uses')
m('parse-21', 'Parse.lean', 'BodyParser.new', '''  match getContentLength headers with
  | some (.error e) => .error e
  | some (.ok size) =>''', '''  if isChunkedTransferEncoding headers then .ok (.chunked ⟨[], .size []⟩) else
  match getContentLength headers with
  | some (.error e) => .error e
  | some (.ok size) =>''',
  'chunked encoding goes before the content length', 'C10: which framing a body uses')
m('parse-22', 'Parse.lean', 'BodyParser.new', 'if size > maxBodySize then', 'if size ≥ maxBodySize then',
  'a body of exactly 3 MiB is refused', 'C15: bodies up to 3 MiB are accepted')
m('parse-23', 'Parse.lean', 'RequestParser.parse', 'MessageParser.loop prof parseRequestLine false 5 p r', 'MessageParser.loop prof parseRequestLine true 5 p r',
  'requests without content length are read to the end of the stream', 'C10, C05: a request without content length has no body')
m('parse-24', 'Parse.lean', 'ResponseParser.parse', 'MessageParser.loop prof parseStatusLine true 5 p r', 'MessageParser.loop prof parseStatusLine false 5 p r',
  'responses without content length have no body', 'C10: responses without content length are read to the end')
m('parse-25', 'Parse.lean', 'getContentLength', '| none => .error .invalidHeaderValue', '| none => .ok 0',
  'a content length that is not a number counts as 0', 'C03: an accepted request has a valid content length')
m('parse-26', 'Parse.lean', 'parseRequestLine', 'if versionSupported v = false then .error .invalidHttpVersion\n    else match Method', 'match Method',
  'the version is not checked', 'C20: bad request lines are rejected')
m('parse-27', 'Parse.lean', 'parseRequestLine', '| m :: uri :: v :: _ =>', '| m :: v :: uri :: _ =>',
  'URI and version swapped', 'C03: the URI is reported')
m('parse-28', 'Parse.lean', 'parseStatusLine', '| v :: code :: _ =>', '| v :: code :: _ :: _ =>',
  'a status line needs a reason phrase', 'C07: responses are read back (all reasons in the table are nonempty)')
m('parse-29', 'Parse.lean', 'RequestParser.hasData', '| .firstLine line => 0 < line.length', '| .firstLine _ => false',
  'the end of the stream within the request line counts as a proper end', 'C22: end of stream, closed or error')
m('parse-30', 'Parse.lean', 'BodyParser.readSoFar', '| .chunked p => p.body.length', '| .chunked _ => 0',
  'a resumed chunked body gets a fresh budget', 'C14: bodies are limited to 3 MiB, however they are split')
m('parse-31', 'Parse.lean', 'BodyParser.readSoFar', '| .untilEof d => d.length', '| .untilEof _ => 0',
  'a resumed body gets a fresh budget', 'C14: bodies are limited to 3 MiB, however they are split')
m('parse-32', 'Parse.lean', 'BytesUntilEofDeframer.parse', '| (.err e, d, r) => (.io d e, r)', '| (.err _, d, r) => (.done d, r)',
  'an error while reading to the end of the stream counts as the end', 'C11: a truncated message is never delivered; C02')
m('parse-33', 'Parse.lean', 'headersState', '| .ok bp => .done (.body first hs bp)\n      | .error e => .perr e, r)', '| .ok bp => .done (.body first hs bp)\n      | .error _ => .done (.body first hs .empty), r)',
  'errors in the choice of the framing are ignored', 'C14: too large content lengths are refused')
m('parse-34', 'Parse.lean', 'bodyState', 'fun b => .done (.finished first hs b), r)', 'fun _ => .done (.finished first hs []), r)',
  'the body is thrown away', 'C03: the body is reported')
# header map
m('header-01', 'Header.lean', 'Header.ofStr', 'let v := lower value', 'let v := value',
  'names are not lowered', 'C18: header names are case-insensitive')
m('header-02', 'Header.lean', 'Header.ofStr', 'if v ∈ standardNames then .standard v else .custom v', 'if v ∈ standardNames then .standard v else .custom value',
  'custom names keep their case', 'C18: header names are case-insensitive')
m('header-03', 'Header.lean', 'HeaderMap.addHeader', "if k' = k then (k', vs ++ [v]) :: m", "if k' = k then (k', v :: vs) :: m",
  'new values go to the front', 'C19: the header map is an insertion-ordered multimap')
m('header-04', 'Header.lean', 'HeaderMap.addHeader', "if k' = k then (k', vs ++ [v]) :: m", "if k' = k then (k', [v]) :: m",
  'a new value replaces the old ones', 'C19: the header map is an insertion-ordered multimap')
m('header-05', 'Header.lean', 'HeaderMap.getFirst', '| some vs => vs[0]?', '| some vs => vs.getLast?',
  'the last value instead of the first', 'C19: the first value')
m('header-06', 'Header.lean', 'HeaderMap.containsHeaderValue', '| some vs => vs.contains v', "| some vs => vs.head? == some v",
  'only the first value is compared', 'C19, C36: any value of Connection may be close')
m('header-07', 'Header.lean', 'standardNames', '  b!"content-length",\n', '',
  'a standard name is missing from the table', 'C10: the content length is found; C18')
# status, method, version
m('status-01', 'Status.lean', 'statusTable', '⟨404, b!"NOT FOUND"⟩,', '⟨400, b!"NOT FOUND"⟩,',
  'wrong code in the table', 'C21: statuses convert both ways')
m('status-02', 'Status.lean', 'statusTable', '⟨404, b!"NOT FOUND"⟩,', '⟨404, b!"NOT  FOUND"⟩,',
  'wrong reason in the table', 'C21: the reasons are those of the registry')
# writing
m('write-01', 'Writer.lean', 'Nbw.flushBuf', 'let pos := w.pos + amount', 'let pos := amount',
  'the position is not advanced from where it was', 'C31: written bytes arrive in order, once')
m('write-02', 'Writer.lean', 'Nbw.flushBuf', 'if pos ≥ w.buf.length then (.ok (), { w with sock, pos := 0, buf := [] })', 'if pos ≥ w.buf.length then (.ok (), { w with sock, pos := 0 })',
  'the buffer is not emptied when all was written', 'C31: written bytes arrive once')
m('write-03', 'Writer.lean', 'Nbw.flushBuf', 'if pos ≥ w.buf.length then (.ok (), { w with sock, pos := 0, buf := [] })', 'if pos > w.buf.length then (.ok (), { w with sock, pos := 0, buf := [] })',
  'a fully written buffer is kept', 'C32: buffered output drains')
m('write-04', 'Writer.lean', 'Nbw.write', '{ w with sock }.push (data.drop amount)', '{ w with sock }.push data',
  'all data is buffered after part was written directly', 'C31: written bytes arrive once')
m('write-05', 'Writer.lean', 'Nbw.write', 'if w.pos = 0 ∧ data.length > w.cap then', 'if data.length > w.cap then',
  'large data is written directly while older data is in the buffer', 'C31: written bytes arrive in order')
m('write-06', 'Writer.lean', 'Nbw.flushInner', '| (.error .wouldBlock, sock) => (.ok (), { w with sock })\n', '',
  'a flush that would block is an error', 'C32: blocking is not an error')
m('write-07', 'Writer.lean', 'Sock.writeLoop', '(if e = .wouldBlock then .ok 0 else .error e, ⟨es, fl, sent⟩)', '(.error e, ⟨es, fl, sent⟩)',
  'a write that would block is an error', 'C32, C33: blocking is not an error')
m('write-08', 'Writer.lean', 'Sock.writeLoop', '(r.map (· + min n b.length), s)', '(r.map (· + n), s)',
  'the count of written bytes is wrong', 'C31, C33')
m('write-09', 'Writer.lean', 'Nbw.flush', '  | (.ok (), w) => w.flushInner\n\nend Nbw', '  | (.ok (), w) => (.ok (), w)\n\nend Nbw',
  'the raw stream is not flushed', 'C32: flush reaches the stream')
m('write-10', 'Writer.lean', 'BufW.flushLoop', 'else flushLoop fl cap es (sent ++ b.take n) (b.drop n)', 'else flushLoop fl cap es (sent ++ b.take n) (b.drop (n + 1))',
  'a byte is skipped after each partial write', 'C54: a client request is sent in order, once')
m('write-11', 'Writer.lean', 'writeAllLoop', '| (.ok n, w) => writeAllLoop f w (b.drop n)', '| (.ok _, w) => (.ok, w)',
  'a partial write counts as complete', 'C54, C33')
m('write-12', 'Writer.lean', 'headerLines', '[k.asStr, b!": ", v, CRLF]', '[k.asStr, b!":", v, CRLF]',
  'no space after the colon', 'C06, C07, C39')
m('write-13', 'Writer.lean', 'writeResponse', '  andThen (res (write w CRLF)) fun w =>\n', '',
  'no empty line after the headers of a response', 'C39, C07')
m('write-14', 'Writer.lean', 'writeResponse', '''  andThen (res (write w r.body)) fun w =>
  res (flush w)''', '''  res (write w r.body)''',
  'responses are not flushed', 'C34, C37: responses are delivered')
m('write-15', 'Writer.lean', 'writeRequest', '''  andThen (writeAll w r.body) fun w =>
  res (flush w)''', '''  writeAll w r.body''',
  'requests are not flushed', 'C54: the request is sent when send waits for the response')
m('write-16', 'Writer.lean', 'writeRequest', '[r.method.text, [SP], r.uri, [SP], b!"HTTP/1.1", CRLF]', '[r.method.text, [SP], r.uri, [SP], b!"HTTP/1.0", CRLF]',
  'wrong version in requests', 'C06: what the client writes the server reads back')
m('write-17', 'Writer.lean', 'HeaderMap.flat', 'm.flatMap fun e => e.2.map fun v => (e.1, v)', 'm.flatMap fun e => (e.2.take 1).map fun v => (e.1, v)',
  'only the first value of a repeated header is written', 'C06, C07, C39')
m('write-18', 'Writer.lean', 'Nbw.write', '''  if w.buf.length + data.length > w.cap then
    match w.flushBuf with
    | (.error e, w) => (.error e, w)''', '''  if w.buf.length + data.length > w.cap then
    match w.flushBuf with
    | (.error _, w) => (.ok 0, w)''',
  'an error of the stream is reported as nothing written', 'C33: errors are reported')
m('write-19', 'Writer.lean', 'BufW.flushLoop', 'if e = .interrupted then flushLoop fl cap es sent b else', 'if e = .interrupted then flushLoop fl cap es sent (b.drop 1) else',
  'an interrupted write loses a byte', 'C54: a client request is sent in order, once')
# one connection of the server
m('server-01', 'Server.lean', 'Conn.readRequest', '(.notReady, { c with reader := r, parser := some p })', '(.notReady, { c with reader := r, parser := none })',
  'the parser is thrown away when there is no more input', 'C34: requests in several pieces are answered; C02')
m('server-02', 'Server.lean', 'isClosed', '(e = .unexpectedEof && !p.hasData) || e = .connectionAborted', 'e = .unexpectedEof || e = .connectionAborted',
  'every end of the stream is a proper end', 'C22')
m('server-03', 'Server.lean', 'isClosed', '(e = .unexpectedEof && !p.hasData) || e = .connectionAborted', '(e = .unexpectedEof && !p.hasData)',
  'an aborted connection is an error', 'C22')
m('server-04', 'Server.lean', 'writeResponseFromRouter', '(writeAll w notFoundResponse)', '(writeAll w badRequestResponse)',
  'unrouted requests get a 400', 'C34, C50')
m('server-05', 'Server.lean', 'shouldCloseAfterResponse', 'q.headers.containsHeaderValue Header.connection b!"close"', 'q.headers.containsHeaderValue Header.connection b!"Close"',
  'wrong spelling of close', 'C36: when the server closes a connection')
m('server-06', 'Server.lean', 'respondLoop', 'if shouldCloseAfterResponse q then (.drop, { c with writer := w }, s)\n        else respondLoop', 'if shouldCloseAfterResponse q then (.keep, { c with writer := w }, s)\n        else respondLoop',
  'the connection is kept after Connection: close', 'C36: when the server closes a connection')
m('server-07', 'Server.lean', 'respondLoop', '''      | (.diverge, w) => (.diverge, { c with writer := w }, s)
      | (_, w) => (.drop, { c with writer := w }, s)''', '''      | (.diverge, w) => (.diverge, { c with writer := w }, s)
      | (_, w) => respondLoop prof rt f { c with writer := w } s''',
  'reading goes on after a malformed request', 'C35: a malformed request ends the connection with one 400')
m('server-08', 'Server.lean', 'respondLoop', '| (.closed, c) => (.drop, c, s)', '| (.closed, c) => (.keep, c, s)',
  'a connection that the client closed is kept', 'C36')
m('server-09', 'Server.lean', 'respondLoop', '| (some (.err _), w, s) => (.drop, { c with writer := w }, s)', '| (some (.err _), w, s) => respondLoop prof rt f { c with writer := w } s',
  'reading goes on after an error while writing', 'C36: an error while writing closes the connection')
m('server-10', 'Server.lean', 'handle', '''    match Write.flush c.writer with
    | (.error _, w) => (.done, .gone { c with writer := w }, s)
    | (.ok (), w) =>
      match respondToRequests prof rt { c with writer := w } s with''', '''    match ((.ok (), c.writer) : Except IoError Unit × W) with
    | (.error _, w) => (.done, .gone { c with writer := w }, s)
    | (.ok (), w) =>
      match respondToRequests prof rt { c with writer := w } s with''',
  'a wake-up does not flush what is buffered', 'C32, C37: buffered output is delivered at later wake-ups')
m('server-11', 'Server.lean', 'writeResponseFromRouter', '''  | (some .next, s) =>
    let (x, w) := andThen (writeAll w notFoundResponse) fun w => res (flush w)
    (some x, w, s)''', '''  | (some .next, s) => (some .ok, w, s)''',
  'unrouted requests get no response', 'C34: one response per request')
m('server-12', 'Server.lean', 'Conn.readRequest', '(.ready q, { c with reader := r, parser := none })', '(.ready q, { c with parser := none })',
  'a request that was read stays in the input', 'C34: one response per request')
m('server-13', 'Server.lean', 'writeErrorResponse', '(writeAll w badRequestResponse)', '(writeAll w [])',
  'no 400', 'C35: a malformed request ends the connection with one 400')
m('server-14', 'Server.lean', 'handle', '| (.keep, c, s) => (.done, .live c, s)', '| (.keep, c, s) => (.done, .gone c, s)',
  'the connection is dropped when there is no more input', 'C36, C38')
# router
m('router-01', 'Router.lean', 'Router.resultInternal', 'if startsWith uri p then', 'if startsWith request.uri p then',
  'the whole URI is compared in nested routers', 'C25: nested routers')
m('router-02', 'Router.lean', 'Router.resultInternal', '''      | (some .next, s) => resultInternal uri request rest s
      | x => x''', '''      | x => x''',
  'the first listener with a matching prefix ends the search', 'C23: first listener that answers')
m('router-03', 'Router.lean', 'Router.resultInternal', '''      | (some .next, s) => resultInternal uri request rest s
      | x => x''', '''      | (some .next, s) => resultInternal uri request rest s
      | (x, s) => (x, (resultInternal uri request rest s).2)''',
  'later listeners are called after one has answered', 'C23: nothing is called after the answer')
m('router-04', 'Router.lean', 'Router.on', 'if uri = routerUri then', 'if startsWith routerUri uri then',
  'exact routes match by prefix', 'C24: exact routes match exactly')
m('router-05', 'Router.lean', 'Router.route', 'match sliceFrom requestUri uri.length with', 'match some requestUri with',
  'the prefix is not removed', 'C25: nested routers')
m('router-06', 'Router.lean', 'Router.route', 'match sliceFrom requestUri uri.length with', 'match sliceFrom requestUri (uri.length + 1) with',
  'one byte too much is removed', 'C25, C26')
m('router-07', 'Router.lean', 'Router.onPrefix', 'self ++ [(uri, listener)]', '(uri, listener) :: self',
  'later routes go first', 'C23: listeners are asked in the order of registration')
# slab and event loop
m('slab-01', 'Slab.lean', 'Slab.nextKey', 'self.openSlots.head?.getD self.data.length', 'self.data.length',
  'the predicted key ignores free slots', 'C28: the predicted key is the key used')
m('slab-02', 'Slab.lean', 'Slab.remove', 'key :: self.openSlots⟩', 'self.openSlots⟩',
  'a removed slot is not reused', 'C30: closed connections release their slot')
m('slab-03', 'Slab.lean', 'Slab.remove', '| _ => (none, self)', '| some none => (none, ⟨self.data, key :: self.openSlots⟩)\n  | none => (none, self)',
  'removing twice frees the slot twice', 'C27: the table is a map')
m('slab-04', 'Slab.lean', 'Slab.insert', 'some (⟨self.data.set index (some inner), openSlots⟩, index)', 'some (⟨self.data.set index (some inner), self.openSlots⟩, index)',
  'a used slot stays on the free list', 'C27: the table is a map')
m('slab-05', 'Slab.lean', 'onEvent', 'else if e.writeClosed then some ((s.remove e.token).2, none)', 'else if e.writeClosed then some (s, none)',
  'closed connections stay in the table', 'C30: closed connections release their slot')
m('slab-06', 'Slab.lean', 'acceptAll', '| .ok _ false :: as, s => acceptAll as s', '| .ok c false :: as, s => (s.insert c).bind fun x => acceptAll as x.1',
  'a stream that cannot be registered gets a slot', 'C29: a failed registration leaves the table unchanged')
m('slab-07', 'Slab.lean', 'onEvent', 'else if e.writeClosed then some ((s.remove e.token).2, none)', 'else if e.writeClosed then some ((s.remove e.token).2, s.get e.token)',
  'a handler is started for a closed connection', 'C29')
# thread pool
m('pool-01', 'ThreadPool.lean', 'Pool.work', 'if s.locked.isSome then none\n    else if', 'if',
  'the mutex does not exclude', 'C40 (mutual exclusion of receivers)')
m('pool-02', 'ThreadPool.lean', 'Pool.work', "(.received m), queue := ms, taken", "(.received m), queue := if ms = [] then [] else s.queue, taken",
  'a message can be received twice', 'C40: every job runs exactly once')
m('pool-03', 'ThreadPool.lean', 'Pool.step', '{ s with owner := .sending s.workers.length }', '{ s with owner := .sending (s.workers.length - 1) }',
  'one Terminate too few', 'C41: drop returns')
m('pool-04', 'ThreadPool.lean', 'Pool.step', '{ s with queue := s.queue ++ [m], sent := s.sent ++ [m] }', '{ s with queue := m :: s.queue, sent := s.sent ++ [m] }',
  'last in, first out', 'C40: jobs are taken in order')
m('pool-05', 'ThreadPool.lean', 'Pool.own', '| some w => if w.alive then none else some { s with owner := .panicked }', '| some _ => some { s with owner := .joining (i + 1) }',
  'drop does not wait', 'C41: dropping the pool waits for all jobs')
m('pool-06', 'ThreadPool.lean', 'Pool.work', 'some { s with workers := s.workers.set i (.matching m), locked := none }', 'some { s with workers := s.workers.set i (.matching m) }',
  'the mutex is not released before the job runs', 'C40: jobs run')
m('pool-07', 'ThreadPool.lean', 'Pool.own', '| .sending 0 => some { s with owner := .joining 0 }', '| .sending 0 => some { s with owner := .joining 1 }',
  'the first worker is not joined', 'C41: dropping the pool waits for all jobs')
m('pool-08', 'ThreadPool.lean', 'Pool.work', '| some (.matching (.job j)) => some { s with workers := s.workers.set i (.running j), started := s.started ++ [j] }', '| some (.matching (.job _)) => some { s with workers := s.workers.set i .idle }',
  'jobs are dropped', 'C40: every job runs')
# client
m('client-01', 'Client.lean', 'ClientConn.sendOpen', '| (.err _, s) => ClientConn.retry prof { c with stream := some s } f q', '| (.err _, s) => let (x, s) := sendRequest prof s q; (x, { c with stream := some s }, f)',
  'the retry uses the old stream', 'C45: the retry is on a fresh connection')
m('client-02', 'Client.lean', 'ClientConn.sendOpen', '| (.err _, s) => ClientConn.retry prof { c with stream := some s } f q', '''| (.err _, s) =>
      match ClientConn.retry prof { c with stream := some s } f q with
      | (.err _, c, f) => ClientConn.retry prof c f q
      | x => x''',
  'a third attempt', 'C45: at most two attempts')
m('client-03', 'Client.lean', 'sendRequest', '| (.err e, w) => (.err (.writing e), { s with writer := w })', '| (.err e, w) => (.err (.reading e), { s with writer := w })',
  'write errors are reported as read errors', 'C48')
m('client-04', 'Client.lean', 'ClientConn.retry', '\n  | (.err e, c, f) => (.err (.connecting e), c, f)', '\n  | (.err e, c, f) => (.err (.writing e), c, f)',
  'connect errors of the retry are reported as write errors', 'C48')
m('client-05', 'Client.lean', 'TcpStreamFactory.create', '''    | (.error _, f) => f.connect
    | x => x) with''', '''    | (.error _, f) => match f.connect with
      | (.error _, f) => f.connect
      | x => x
    | x => x) with''',
  'three attempts to connect', 'C45: how often a connection is opened')
m('client-06', 'Client.lean', 'sendRequest', 'match ResponseParser.parse prof .new s.reader with', 'match ResponseParser.parse prof .new (ClientStream.open ⟨[], [], [], id⟩).reader with',
  'the response is not read from the stream of the request', 'C46, C48')
m('client-07', 'Client.lean', 'ClientConn.retry', '''      let (x, s) := sendRequest prof s q
      (x, { c with stream := some s }, f)''', '''      let (x, s) := sendRequest prof s { q with body := [] }
      (x, { c with stream := some s }, f)''',
  'the retry leaves out the body', 'C45, C54: both attempts send the request')
m('client-08', 'Client.lean', 'ClientConn.connect', 'c.dropped ++ (c.stream.map ClientStream.drop).toList⟩, f)', 'c.dropped⟩, f)',
  '(record only) dropped streams are not recorded', 'C45')
# shared client
m('cpool-01', 'ClientPool.lean', 'CPool.step', '| some .free => some', '| some (.held _) => none\n      | some .free => some',
  'a thread waits at a locked connection instead of trying the next', 'C47: a free connection is found')
m('cpool-02', 'ClientPool.lean', 'CPool.step', '''      | some .free => some { s with locks := s.locks.set i (.held t), threads := s.threads.set t (.sending q i) }
      | some _ =>''', '''      | some .free => some { s with threads := s.threads.set t (.sending q i) }
      | some _ =>''',
  'the connection is not locked', 'C47: a connection is used by one request at a time')
m('cpool-03', 'ClientPool.lean', 'CPool.step', "| _ => some { conns := s.conns.set i c', locks := s.locks.set i .free,", "| _ => some { conns := s.conns.set i c', locks := s.locks,",
  'the connection is not released', 'C47: connections become free again')
m('cpool-04', 'ClientPool.lean', 'CPool.step', '| none => some { s with threads := s.threads.set t (.scanning q 0) }', '| none => some { s with threads := s.threads.set t .panicked }',
  'send panics when all connections are in use', 'C47: send waits')
# whole server
m('net-01', 'Net.lean', 'Net.onEvent', '''    else if closed then''', '''    else if c.lock.isSome then some s
    else if closed then''',
  'an event of a connection that is being handled is dropped', 'C44: no wake-up is lost')
m('net-02', 'Net.lean', 'Net.step', 'if k ∈ ks then { c with edge := false } else c', '{ c with edge := false }',
  'poll clears the readiness of sockets it does not return', 'C44: no wake-up is lost')
m('net-03', 'Net.lean', 'Net.step', 'if s.phase w = .enter ∧ c.lock = none then', 'if s.phase w = .enter then',
  'the mutex does not exclude', 'C43: a connection is handled by one thread at a time')
m('net-04', 'Net.lean', 'Net.advance', '''      else some ((s.setConn k { c with slot := .live { conn with writer := wr } }).setPhase w .reading)
    | (.err _, wr)''', '''      else some ((s.setConn k { c with slot := .live { conn with writer := wr } }).setPhase w .leaving)
    | (.err _, wr)''',
  'a handler answers one request and returns', 'C44: what has arrived is read')
m('net-05', 'Net.lean', 'Net.advance', '| (.ready q, conn) => some ((s.setConn k { c with slot := .live conn }).setPhase w (.asked q))', '| (.ready q, conn) => some ((s.setConn k { c with slot := .live conn, lock := none }).setPhase w (.asked q))',
  'the mutex is released before the router is asked', 'C43')
m('net-06', 'Net.lean', 'Net.step', '''    | k :: ks => ({ s with batch := ks } : Net σ).onEvent k closed''', '''    | k :: _ => ({ s with batch := [] } : Net σ).onEvent k closed''',
  'only the first event of each poll is handled', 'C44: no wake-up is lost')
m('net-07', 'Net.lean', 'Net.crash', '{ c with slot := .poisoned conn, lock := none }', '{ c with slot := .live conn, lock := none }',
  'a panic does not poison the mutex', 'C55: what a panic costs')
# file server
m('file-01', 'FileServer.lean', 'getContentType', 'b!".js" then b!"application/javascript"', 'b!".js" then b!"text/plain"',
  'wrong content type', 'C52')
m('file-02', 'FileServer.lean', 'fileResponse', 'natDec contents.length', 'natDec (contents.length + 1)',
  'wrong content length', 'C52')
m('file-03', 'FileServer.lean', 'FileServer.step', 's.cache.insert (filePath directory uri) r', 's.cache.insert uri r',
  'the cache is filled under the wrong key', 'C52: answers are stable')
m('file-04', 'FileServer.lean', 'fileListener', '(s.caches i).insert path r else s.caches j', '(s.caches i) else s.caches j',
  'nothing is put into the cache', 'C52: answers are stable')
m('file-05', 'FileServer.lean', 'mainRouter', 'Router.route router b!"/" (fileRouter 1', 'Router.route router b!"/" (fileRouter 0',
  'both file routers share a cache', 'C52')
m('file-06', 'FileServer.lean', 'filePath', 'let path := directory ++ uri', 'let path := uri',
  'the directory is ignored', 'C51: the example file server stays within its directory')
# values
m('value-01', 'Message.lean', 'Response.ofBody', 'natDec body.length', 'natDec (body.length + 1)', 'wrong content length', 'C49')
m('value-02', 'Message.lean', 'Response.ofStatus', 'b!"0"', 'b!"1"', 'wrong content length', 'C49')

# further edits for the lemmas that only restate the steps of the server, so that the theorems behind them are tested
# one stream for both directions
m('shared-01', 'Shared.lean', 'SharedConn.respondLoop', 'if shouldCloseAfterResponse q then (.drop, { c with reader := w }, s)\n        else respondLoop', 'if shouldCloseAfterResponse q then (.keep, { c with reader := w }, s)\n        else respondLoop',
  'the connection is kept after Connection: close', 'C71: over any stream the server does what it does over a scripted one')
m('shared-02', 'Shared.lean', 'SharedConn.handle', '| (.error _, w) => (.done, .gone { c with reader := w }, s)', '| (.error _, w) => (.done, .live { c with reader := w }, s)',
  'a connection whose flush fails is kept', 'C71: as above')
m('shared-03', 'Shared.lean', 'Shared.fillBufL', '| (.ok b, s) => (.ok (b.take l), s)', '| (.ok b, s) => (.ok b, s)',
  'the limit of the reader is not applied to what it offers', 'C71: as above')
m('shared-04', 'Shared.lean', 'Shared.consumeL', '((l - amt) :: ls\', s\')', '(l :: ls\', s\')',
  'consume does not count towards the limit', 'C71: as above')
m('shared-05', 'Shared.lean', 'Shared.sendRequest', '| (.io _ e, x) => (.err (.reading e), x)', '| (.io _ e, x) => (.err (.writing e), x)',
  'errors while reading are reported as errors while writing', 'C71: over any stream the client does what it does over a scripted one')
m('shared-06', 'Shared.lean', 'instance Write (Shared S)', '  flush w :=\n    match Wr.flush w.rounds w.stream with\n    | some (x, stream) => (x, { w with stream })\n    | none => (.error .other, { w with hung := true })', '  flush w := (.ok (), w)',
  'flushing a connection does nothing', 'C71: as above')
m('shared-07', 'Shared.lean', 'Shared.readUntil', '(.ok, acc ++ av.take (i + 1), ls, s)', '(.ok, acc ++ av.take i, ls, s)',
  'the delimiter is left out of a line', 'C71: as above')
m('shared-08', 'Shared.lean', 'SharedConn.respondLoop', '| (.notReady, c) => (.keep, c, s)\n    | (.closed, c) => (.drop, c, s)', '| (.notReady, c) => (.drop, c, s)\n    | (.closed, c) => (.drop, c, s)',
  'the connection is dropped when there is nothing to read', 'C71: as above')

# more about TLS
m('tls-13', 'Tls.lean', 'TlsStream.completeLoop', 'if !untilDone && wrote then (.ok didRead, t)', 'if false then (.ok didRead, t)',
  'complete_io goes on reading after it wrote something (as in later versions of rustls)', 'C71: a reply of the session makes a read report the end of the stream')
m('tls-14', 'Tls.lean', 'TlsStream.readLoop', '| (.ok true, t) => readLoop f t', '| (.ok true, t) => (.ok (), t)',
  'read returns after the first records even if they held no data', 'C67/C71: a read reports the end of the stream only when the peer has ended it')
m('tls-15', 'Tls.lean', 'TlsStream.flush', '    if t.sess.wantsWrite then\n      match t.completeIo with\n      | (.error e, t) => (.error e, t)\n      | (.ok _, t) => (.ok (), t)\n    else (.ok (), t)\n\n/-- `Drop', '    (.ok (), t)\n\n/-- `Drop',
  'flush only does what every operation does first', 'none (the first step of flush has already written everything)')
m('tls-16', 'Tls.lean', 'TlsStream.completePriorIo', '  match (if t.sess.handshaking then t.completeIo else (.ok false, t)) with\n  | (.error e, t) => (.error e, t)\n  | (.ok _, t) =>\n    match (if t.sess.wantsWrite', '  match ((.ok false, t) : Except IoError Bool × TlsStream) with\n  | (.error e, t) => (.error e, t)\n  | (.ok _, t) =>\n    match (if t.sess.wantsWrite',
  'the handshake is not completed before data is written', 'C67: no data goes out before the handshake is over')
m('tls-17', 'Tls.lean', 'TlsSession.read', '(.ok (s.plain.take n), { s with plain := s.plain.drop n })', '(.ok (s.plain.take n), { s with plain := [] })',
  'a short read loses the rest of the record', 'C67: reads deliver the bytes that the peer sent')
m('tls-18', 'Tls.lean', 'TlsSession.write', 'if b = [] then s else s.send (.data b)', 's.send (.data b)',
  'an empty write sends an empty record', 'none (an empty record carries no data)')
m('tls-19', 'Tls.lean', 'TlsStream.write', '(.ok b.length, (completeIo { t with sess := t.sess.write b }).2)', '(.ok b.length, { t with sess := t.sess.write b })',
  'write does not send', 'C67: what write accepted goes out when the socket takes it')

# tables
m('status-03', 'Status.lean', 'Status.fromCode', 'statusTable.find? fun s => s.code = code', '(statusTable.find? fun s => s.code = code).or (some ⟨code, b!"UNKNOWN"⟩)',
  'unknown codes are accepted', 'C21: a code is unknown exactly if no predefined status has it')
m('status-04', 'Status.lean', 'Method.tryFromStr', 'else if s = b!"PUT" then some .put\n  else none', 'else if s = b!"PUT" then some .put\n  else if s = b!"HEAD" then some .get\n  else none',
  'HEAD is taken as GET', 'C21: a text parses as a method exactly if it is that method\'s text')
m('status-05', 'Status.lean', 'Method.text', '| .put => b!"PUT"', '| .put => b!"POST"',
  'PUT is written as POST', 'C21: different methods have different texts')

# more about routing
m('router-08', 'Router.lean', 'isCharBoundary', '| some b => n == 0 || !isCont b', '| some b => n == 0 || isCont b',
  'wrong test for the boundary of a character', 'C26: cutting a matching prefix off a URI never panics')
m('router-09', 'Router.lean', 'isCharBoundary', '  match s[n]? with\n  | some b => n == 0 || !isCont b\n  | none => n == s.length', '  match s[n]? with\n  | some b => n == 0 || !isCont b\n  | none => false',
  'cutting off the whole URI panics', 'C26: cutting a matching prefix off a URI never panics')

# the table, if closed connections were removed
m('slab-09', 'Slab.lean', 'onEvent', '  else some (s, s.get e.token)', '  else some ((s.remove e.token).2, s.get e.token)',
  'each event removes the connection from the table', 'C30: a connection closed by the server stays in the table; C53: an event reaches the connection in the table')


# more about the server as a whole
m('net-08', 'Net.lean', 'Net.onEvent', 'else if closed then some (s.setConn k { c with inTable := false })', 'else if closed then some s',
  'a hang-up does not remove the connection from the table', 'C53/C55: the table drops connections that hang up')
m('net-09', 'Net.lean', 'Net.advance', '| (.closed, conn) => some ((s.setConn k { c with slot := .gone conn }).setPhase w .leaving)', '| (.closed, conn) => some ((s.setConn k { c with slot := .live conn }).setPhase w .leaving)',
  'a connection that the client closed is kept', 'C55: the handlers of a connection do what one handler after the other would do')
m('net-10', 'Net.lean', 'Net.advance', 'if shouldCloseAfterResponse q then some ((s.setConn k { c with slot := .gone { conn with writer := wr } }).setPhase w .leaving)\n      else some ((s.setConn k { c with slot := .live { conn with writer := wr } }).setPhase w .reading)', 'some ((s.setConn k { c with slot := .live { conn with writer := wr } }).setPhase w .reading)',
  'Connection: close is ignored', 'C55/C62: as above')
m('net-11', 'Net.lean', 'Net.enter', 'slot := (Slot.live conn).wake evs, lock := some w, wakes := c.wakes ++ [evs] }).setPhase w .flushing)', 'slot := (Slot.live conn).wake evs, lock := some w, wakes := c.wakes ++ [evs] }).setPhase w .reading)',
  'a handler does not flush before it reads', 'C55/C60: as above')
m('net-12', 'Net.lean', 'Net.advance', '    match (rt.result q s.state).1 with\n    | none => s₁.crash w k c conn', '    match (rt.result q s.state).1 with\n    | none => some ((s₁.setConn k { c with slot := .gone conn }).setPhase w .leaving)',
  'a panic of a listener is caught and the connection closed', 'C69: a panicking listener takes a worker')
m('net-13', 'Net.lean', 'Net.step', 'some { s with batch := ks, conns := s.conns.mapIdx fun k c => if k ∈ ks then { c with edge := false } else c }', 'some { s with batch := ks }',
  'readiness is level triggered', 'C60/C62 do not depend on it; C69/C70 may')
m('net-14', 'Net.lean', 'Net.enter', '| .gone _ => some ((s.setConn k { c with lock := some w, wakes := c.wakes ++ [evs] }).setPhase w .leaving)', '| .gone _ => (s.pool.step (.work w true)).map fun pool => { s.setConn k { c with wakes := c.wakes ++ [evs] } with pool }',
  'an event of a closed connection panics', 'C69/C61: only a panicking listener or a poisoned mutex takes a worker')
m('net-15', 'Net.lean', 'Net.advance', 'some ((s.setConn k { c with slot := .live conn, drained := c.arrived.length }).setPhase w .leaving)', 'some ((s.setConn k { c with slot := .live { conn with parser := none }, drained := c.arrived.length }).setPhase w .leaving)',
  'a partial request is forgotten when there is nothing to read', 'C55/C62: as above')

# more about the client
m('client-09', 'Client.lean', 'ClientConn.sendOpen', '| (x, s) => (x, { c with stream := some s }, f)\n\n/-- `Connection::send`, client.rs 110-122. -/', '| (x, s) => (x, { c with stream := none, dropped := c.dropped ++ [s.drop] }, f)\n\n/-- `Connection::send`, client.rs 110-122. -/',
  'the stream is closed after each response', 'C45: the stream is used again')
m('client-10', 'Client.lean', 'ClientConn.sendOpen', '| (.err _, s) => ClientConn.retry prof { c with stream := some s } f q', '| (.err (.writing _), s) => ClientConn.retry prof { c with stream := some s } f q',
  'only errors while writing are retried', 'C45: each failed attempt is repeated once on a new stream')
m('client-11', 'Client.lean', 'ClientConn.connect', '| (.ok s, f) => (.ok, ⟨some (.open s), c.dropped ++ (c.stream.map ClientStream.drop).toList⟩, f)', '| (.ok s, f) => (.ok, ⟨(c.stream.orElse fun _ => some (.open s)), c.dropped⟩, f)',
  'a new stream does not replace the old one', 'C45: the second attempt is on a new stream')
m('cpool-05', 'ClientPool.lean', 'CPool.step', '| none => some { s with threads := s.threads.set t (.scanning q 0) }', '| none => none',
  'a thread looks at each connection only once', 'C47: waiting threads look on')
m('cpool-06', 'ClientPool.lean', 'CPool.step', 'locks := s.locks.set i .poisoned, threads := s.threads.set t .panicked, log', 'locks := s.locks.set i .free, threads := s.threads.set t .panicked, log',
  'a panic does not poison the mutex', 'C47: a connection can be taken exactly if no call uses it and none on it panicked')


def also(id, *edits):
    d = [d for d in out if d['id'] == id][0]
    d.setdefault('also', []).extend([list(e) for e in edits])

PN = 'Verif/Proofs/Net.lean'
also('net-01', (PN, 's.conns[k]? = some c → c.inTable = false → (s.batch', 's.conns[k]? = some c → (c.inTable = false ∨ c.lock ≠ none) → (s.batch'),
  (PN, """    · next hi => cases h; exact .skip hc (by simpa using hi) hb
    · next hi =>
      split at h
      · cases h; exact .remove hc hb
      · split at h
        · cases h
        · next pool hp =>
          cases h
          by_cases ho : pool.owner = .using
          · simp only [if_pos ho]
            exact .execute hc (by simpa using hi) hb hp ho
          · simp only [if_neg ho]
            exact .fail hb hp ho
""", """    · next hi => cases h; exact .skip hc (.inl (by simpa using hi)) hb
    · next hi =>
      split at h
      · next hi => cases h; exact .skip hc (.inr (by intro h; simp [h] at hi)) hb
      split at h
      · cases h; exact .remove hc hb
      · split at h
        · cases h
        · next pool hp =>
          cases h
          by_cases ho : pool.owner = .using
          · simp only [if_pos ho]
            exact .execute hc (by simpa using hi) hb hp ho
          · simp only [if_neg ho]
            exact .fail hb hp ho
"""))
also('net-02', (PN, 's.conns.mapIdx fun k c => if k ∈ ks then { c with edge := false } else c }', 's.conns.mapIdx fun _ c => { c with edge := false } }'))
also('net-03', (PN, 's.phase w = .enter → c.lock = none → c.slot = .poisoned conn', 's.phase w = .enter → c.slot = .poisoned conn'),
  (PN, 's.phase w = .enter → c.lock = none → c.slot = .gone conn', 's.phase w = .enter → c.slot = .gone conn'),
  (PN, 's.phase w = .enter → c.lock = none → c.slot = .live conn', 's.phase w = .enter → c.slot = .live conn'),
  (PN, '.enterPoisoned hk hc hp.1 hp.2 hs h1', '.enterPoisoned hk hc hp hs h1'),
  (PN, '.enterGone hk hc hp.1 hp.2 hs', '.enterGone hk hc hp hs'),
  (PN, '.enter hk hc hp.1 hp.2 hs', '.enter hk hc hp hs'))
also('net-04', (PN, 'Move prof (.reply q r) (.live c) a d .reading (.live { c with writer := wr }) d', 'Move prof (.reply q r) (.live c) a d .leaving (.live { c with writer := wr }) d'))
also('net-05', (PN, """  | ready {c c' : Conn Rd Nbw} {q : Request} {a d : Nat} : c.readRequest prof = (.ready q, c') →
      Move prof .reading (.live c) a d (.asked q) (.live c') d
""", ''), (PN, """  | leave {pool : Pool} : s.phase w = .leaving""", """  | ready {conn conn' : Conn Rd Nbw} {q : Request} : s.phase w = .reading → c.slot = .live conn → conn.readRequest prof = (.ready q, conn') →
      Advance prof rt s w k c ((s.setConn k { c with slot := .live conn', lock := none }).setPhase w (.asked q))
  | leave {pool : Pool} : s.phase w = .leaving"""),
  (PN, 'exact .move (by rw [hp, hs]; exact .ready hf)', 'exact .ready hp hs hf'))
also('net-06', (PN, """c.inTable = false → (s.batch = b ∨ s.batch = k :: b) →
      NStep prof rt s { s with batch := b }""", """c.inTable = false → (s.batch = b ∨ ∃ ks, s.batch = k :: ks ∧ b = []) →
      NStep prof rt s { s with batch := b }"""),
  (PN, """  | remove {k : Nat} {b : List Nat} {c : NConn σ} : s.conns[k]? = some c → (s.batch = b ∨ s.batch = k :: b) →""",
    """  | remove {k : Nat} {b : List Nat} {c : NConn σ} : s.conns[k]? = some c → (s.batch = b ∨ ∃ ks, s.batch = k :: ks ∧ b = []) →"""),
  (PN, """      (s.batch = b ∨ s.batch = k :: b) → s.pool.step .execute = some pool → pool.owner = .using →""",
    """      (s.batch = b ∨ ∃ ks, s.batch = k :: ks ∧ b = []) → s.pool.step .execute = some pool → pool.owner = .using →"""),
  (PN, """      (s.batch = b ∨ s.batch = k :: b) → s.pool.step .execute = some pool → pool.owner ≠ .using →""",
    """      (s.batch = b ∨ ∃ ks, s.batch = k :: ks ∧ b = []) → s.pool.step .execute = some pool → pool.owner ≠ .using →"""),
  (PN, """(hb : s.batch = b ∨ s.batch = k :: b)
    (h : ({ s with""", """(hb : s.batch = b ∨ ∃ ks, s.batch = k :: ks ∧ b = [])
    (h : ({ s with"""), (PN, 'exact onEvent_cases (.inr hb) h', 'exact onEvent_cases (.inr ⟨_, hb, rfl⟩) h'))
also('net-07', (PN, "Advance prof rt s w k c { s.setConn k { c with slot := .poisoned conn', lock := none } with pool }", "Advance prof rt s w k c { s.setConn k { c with slot := .live conn', lock := none } with pool }"),
  (PN, '{ c with seen := c.seen ++ [(q, s.state)], slot := .poisoned conn, lock := none } with pool }', '{ c with seen := c.seen ++ [(q, s.state)], slot := .live conn, lock := none } with pool }'))

PT = 'Verif/Proofs/ThreadPool.lean'
PCP = 'Verif/Props/ClientPool.lean'
PCL = 'Verif/Props/Client.lean'
also('pool-01', (PT, '| lock : s.workers[i]? = some .idle → s.locked = none →', '| lock : s.workers[i]? = some .idle → True →'),
  (PT, '| bad : s.workers[i]? = some .idle → s.locked = none →', '| bad : s.workers[i]? = some .idle → True →'),
  (PT, """    split at h
    · cases h
    · next hl =>
      split at h
      · next hp => cases h; exact .bad hw (by simpa using hl) hp
      · next hp => cases h; exact .lock hw (by simpa using hl) (by simpa using hp)
""", """    split at h
    · next hp => cases h; exact .bad hw trivial hp
    · next hp => cases h; exact .lock hw trivial (by simpa using hp)
"""))
also('pool-02', (PT, 'WorkStep s i { s with workers := s.workers.set i (.received m), queue := ms,', 'WorkStep s i { s with workers := s.workers.set i (.received m), queue := if ms = [] then [] else s.queue,'))
also('pool-03', (PT, 'OwnStep s { s with owner := .sending s.workers.length }', 'OwnStep s { s with owner := .sending (s.workers.length - 1) }'))
also('pool-04', (PT, 'OwnStep s { s with queue := s.queue ++ [.job (jobsOf s.sent).length], sent', 'OwnStep s { s with queue := .job (jobsOf s.sent).length :: s.queue, sent'))
also('pool-05', (PT, """w ≠ .exited → w.alive = false →
      OwnStep s { s with owner := .panicked }""", """w ≠ .exited → True →
      OwnStep s { s with owner := .joining (i + 1) }"""),
  (PT, """      split at h
      · cases h
      · next ha => cases h; exact .dead ho hw (by rintro rfl; exact hne rfl) (by simpa using ha)""",
    """      cases h; exact .dead ho hw (by rintro rfl; exact hne rfl) trivial"""))
also('pool-06', (PT, 'WorkStep s i { s with workers := s.workers.set i (.matching m), locked := none }', 'WorkStep s i { s with workers := s.workers.set i (.matching m) }'))
also('pool-07', (PT, '| all : s.owner = .sending 0 → OwnStep s { s with owner := .joining 0 }', '| all : s.owner = .sending 0 → OwnStep s { s with owner := .joining 1 }'))
also('pool-08', (PT, 'WorkStep s i { s with workers := s.workers.set i (.running j), started := s.started ++ [j] }', 'WorkStep s i { s with workers := s.workers.set i .idle }'))
also('cpool-01', (PCP, '      · next l hne hl => cases h; exact .busy ht (by rw [hl]; rintro h; cases h; exact hne rfl)\n',
  '      · cases h\n'),
  (PCP, """      · next hl => cases h; exact .got ht hl
      · cases h""", """      · cases h
      · next hl => cases h; exact .got ht hl
      · next l hne hne' hl => cases h; exact .busy ht (by rw [hl]; rintro h; cases h; exact hne' rfl)"""))
also('cpool-02', (PCP, 'CStep prof s { s with locks := s.locks.set i (.held t), threads := s.threads.set t (.sending q i) }', 'CStep prof s { s with threads := s.threads.set t (.sending q i) }'))
also('cpool-03', (PCP, """CStep prof s ⟨s.conns.set i c', s.locks.set i l, s.threads.set t th, s.log ++ [⟨i, t, q, f, x⟩]⟩""", """CStep prof s ⟨s.conns.set i c', s.locks.set i l, s.threads.set t th, s.log ++ [⟨i, t, q, f, x⟩]⟩
  | kept {t i : Nat} {q : Request} {c c' : ClientConn} {f f' : List CreateEnd} {x : SendEnd} :
      s.threads[t]? = some (.sending q i) → s.conns[i]? = some c → c.send prof f q = (x, c', f') →
      CStep prof s ⟨s.conns.set i c', s.locks, s.threads.set t .idle, s.log ++ [⟨i, t, q, f, x⟩]⟩"""),
  (PCP, '        · next hx _ => cases h; exact .ended ht hc rfl (.inr ⟨rfl, rfl, hx⟩)', '        · cases h; exact .kept ht hc rfl'))
also('cpool-04', (PCP, 'CStep prof s { s with threads := s.threads.set t (.scanning q k) }', """CStep prof s { s with threads := s.threads.set t (.scanning q k) }
  | full {t i : Nat} {q : Request} : s.threads[t]? = some (.scanning q i) → s.locks[i]? = none →
      CStep prof s { s with threads := s.threads.set t .panicked }"""),
  (PCP, '      · next hl => cases h; exact .busy ht (by rw [hl]; simp)\n', '      · next hl => cases h; exact .full ht hl\n'))
also('client-04', (PCL, """(∀ r, x ≠ .ok r) ∧ c' = ⟨some (sendRequest prof s q).2, c.dropped⟩ ∧
        ((∃ e, (StreamFactory.create f).1 = .err e ∧ x = .err (.connecting e))""", """(∀ r, x ≠ .ok r) ∧ c' = ⟨some (sendRequest prof s q).2, c.dropped⟩ ∧
        ((∃ e, (StreamFactory.create f).1 = .err e ∧ x = .err (.writing e))"""),
  (PCL, '((∃ e, (StreamFactory.create f₁).1 = .err e ∧ x = .err (.connecting e))', '((∃ e, (StreamFactory.create f₁).1 = .err e ∧ x = .err (.writing e))'))
also('client-07', (PCL, """∃ raw, StreamFactory.create f = (.ok raw, f') ∧ x = (sendRequest prof (.open raw) q).1 ∧
        c' = ⟨some (sendRequest prof (.open raw) q).2,""", """∃ raw, StreamFactory.create f = (.ok raw, f') ∧ x = (sendRequest prof (.open raw) { q with body := [] }).1 ∧
        c' = ⟨some (sendRequest prof (.open raw) { q with body := [] }).2,"""),
  (PCL, """∃ raw, StreamFactory.create f₁ = (.ok raw, f') ∧ x = (sendRequest prof (.open raw) q).1 ∧
          c' = ⟨some (sendRequest prof (.open raw) q).2,""", """∃ raw, StreamFactory.create f₁ = (.ok raw, f') ∧ x = (sendRequest prof (.open raw) { q with body := [] }).1 ∧
          c' = ⟨some (sendRequest prof (.open raw) { q with body := [] }).2,"""))
also('server-09', ('Verif/Proofs/NetSerial.lean', '| (some (.err _), w, s) => (.drop, { c with writer := w }, s)', '| (some (.err _), w, s) => respondLoop prof rt f { c with writer := w } s'))
also('server-14', ('Verif/Proofs/Serving.lean', '| (.keep, c, s) => (.done, .live c, s)', '| (.keep, c, s) => (.done, .gone c, s)'))

# interruptions
m('io-01', '../Std/Io.lean', 'Rd.readUntil', '    | (.error .interrupted, s) => readUntil d f acc ls s\n', '',
  'read_until gives up when a read is interrupted', 'C72: interruptions outside of parts of known length make no difference')
also('io-01', (M + '../Std/Io.lean', '      | .err .interrupted => scan d ls as\n', ''), (M + 'Shared.lean', '    | (.error .interrupted, s) => readUntil d f acc ls s\n', ''))
m('io-02', '../Std/Io.lean', 'Rd.readToEndLoop', '    | (.error .interrupted, ls, s) => readToEndLoop f acc ls s\n', '',
  'read_to_end gives up when a read is interrupted', 'C72: interruptions outside of parts of known length make no difference')
also('io-02', (M + '../Std/Io.lean', '      | .err .interrupted => drain ls as\n', ''), (M + 'Shared.lean', '    | (.error .interrupted, ls, s) => readToEndLoop offer f acc ls s\n', ''))
# start and end of the server
m('life-01', 'Lifecycle.lean', 'Life.step', '(dropPool (dropTable l.net)).map fun s => ⟨s, .ending e⟩ else none', 'some l else none',
  'an error of poll is ignored', 'C73: the server ends with the error')
m('life-02', 'Lifecycle.lean', 'Life.step', '(dropPool (dropTable l.net)).map', '(dropPool l.net).map',
  'the table of connections is kept when the server ends', 'C73: all connections are closed when listen_http returns')
m('life-03', 'Lifecycle.lean', 'Life.step', '(dropPool (dropTable l.net)).map fun s => ⟨s, .ending e⟩ else none', 'some ⟨{ dropTable l.net with pool := { l.net.pool with owner := .dropped } }, .ending e⟩ else none',
  'listen_http returns without waiting for the workers', 'C73: what was submitted is finished before listen_http returns')
m('life-04', 'Lifecycle.lean', 'Life.step', 'if l.stage ≠ .serving ∧ a.ofLoop = true then none', 'if l.stage ≠ .serving ∧ a.ofLoop = true ∧ False then none',
  'connections are still accepted while the server ends', 'C73: no connection is accepted and no event handled after the error')
m('life-05', 'Lifecycle.lean', 'Life.start', '| some e => (dropPool s).map fun s => ⟨s, .ending e⟩', '| some _ => some ⟨s, .serving⟩',
  'an error of bind is ignored', 'C73: an error before the loop is returned')
m('life-06', 'Lifecycle.lean', 'Life.start', '  if addrOk then\n    (Net.new n s₀).bind fun s =>', '  if addrOk ∨ True then\n    (Net.new n s₀).bind fun s =>',
  'the address is not checked', 'C73: an address that is none makes listen_http panic')
m('life-07', 'Lifecycle.lean', 'Life.outcome', '| .ending e, .dropped => some (.returned e)', '| .ending _, .dropped => some (.returned .other)',
  'another error is returned', 'C73: the error of poll is returned')
# persistence
m('close-01', 'Server.lean', 'shouldCloseAfterResponse', 'q.headers.containsHeaderValue Header.connection b!"close"', '(q.headers.get Header.connection).any fun vs => vs.any fun v => lower v == b!"close"',
  'close is compared without case', 'C74_close_false: Connection: Close leaves the connection open')
m('close-02', 'Server.lean', 'shouldCloseAfterResponse', 'q.headers.containsHeaderValue Header.connection b!"close"', 'q.headers.containsHeaderValue Header.connection b!"close" || q.headers.containsHeaderValue Header.connection b!"keep-alive"',
  'keep-alive closes', 'C74: a connection that should persist is kept')
m('close-03', 'Server.lean', 'shouldCloseAfterResponse', 'q.headers.containsHeaderValue Header.connection b!"close"', '(q.headers.get Header.connection).isSome',
  'every Connection header closes', 'C74: a connection that should persist is kept')
m('close-04', 'Server.lean', 'shouldCloseAfterResponse', 'q.headers.containsHeaderValue Header.connection b!"close"', 'q.headers.containsHeaderValue Header.connection b!"close" && q.method != .post',
  'a POST never closes', 'C74: a connection that should not persist is closed')
# making clients
m('new-01', 'ClientNew.lean', 'hostPart', 'addr.takeWhile fun b => b ≠ 58', '(addr.dropWhile fun b => b ≠ 58).drop 1',
  'the port is taken for the host', 'C75: the session asks for the name of the host')
m('new-02', 'ClientNew.lean', 'dnsValid', 'h.length ≤ 253 && h ≠ []', 'h ≠ []',
  'no limit for the length of a name', 'C75: which addresses are accepted')
m('new-03', 'ClientNew.lean', 'dnsValid', '!s.endsHyphen && !s.allNumeric', '!s.endsHyphen',
  'the last label may consist of digits', 'C75_address_false: IPv4 addresses are refused')
m('new-04', 'ClientNew.lean', 'DnsScan.next', '∨ (65 ≤ b ∧ b ≤ 90) ∨ b = 95 then', '∨ (65 ≤ b ∧ b ≤ 90) then',
  'no underscore in names', 'C75: which addresses are accepted')
m('new-05', 'ClientNew.lean', 'DnsScan.next', 'if s.length = 0 then none else if s.length + 1 > 63 then none else some ⟨s.length + 1, false, true⟩', 'if s.length + 1 > 63 then none else some ⟨s.length + 1, false, true⟩',
  'a label may begin with a hyphen', 'C75: which addresses are accepted')
m('new-06', 'ClientNew.lean', 'DnsScan.next', 'if s.length = 0 then none else if s.endsHyphen then none else some ⟨0, s.allNumeric, false⟩', 'if s.length = 0 then none else some ⟨0, s.allNumeric, false⟩',
  'a label may end with a hyphen', 'C75: which addresses are accepted')
m('new-07', 'ClientNew.lean', 'TlsStreamFactory.new', 'some ⟨.new cfg connects, hostPart cfg.addr⟩', 'some ⟨.new cfg connects, cfg.addr⟩',
  'the session asks for the whole address', 'C75: the session asks for the name of the host')
m('new-08', 'ClientNew.lean', 'TcpStreamFactory.new', '⟨cfg.readTimeout = 0, connects⟩', '⟨false, connects⟩',
  'a zero timeout means none', 'C75_timeout_false')
m('new-09', 'ClientNew.lean', 'newHttps', '(TlsStreamFactory.new cfg connects).bind fun f => (CPool.new cfg.numConnections threads).map fun p => (p, f)', '(TlsStreamFactory.new cfg connects).bind fun f => (CPool.new (cfg.numConnections + 1) threads).map fun p => (p, f)',
  'one connection more than configured', 'C75: a positive number of connections is needed')
m('new-10', 'ClientNew.lean', 'TlsStreamFactory.create', '(p.input f.dnsName)', '(p.input [])',
  'the session asks for no name', 'C75: the session asks for the name of the host')
# connections over any streams
m('any-01', 'ClientAny.lean', 'AnyConn.sendOpen', '| (.err _, x) => AnyConn.retry prof offer n { c with stream := some x } f q', '| (.err _, x) => ((x.send prof q).1, { c with stream := some (x.send prof q).2 }, f)',
  'the retry uses the old stream', 'C76: as over scripted streams')
m('any-02', 'ClientAny.lean', 'AnyConn.sendOpen', '    | (.err _, x) => AnyConn.retry prof offer n { c with stream := some x } f q\n', '',
  'no retry', 'C76: as over scripted streams')
m('any-03', 'ClientAny.lean', 'AnyStream.drop', '  | some (_, w) => { x with shared := { x.shared with stream := ⟨w⟩ } }', '  | some (_, _) => x',
  'dropping a stream writes nothing', 'C76: what was sent on the streams is the same')
m('any-04', 'ClientAny.lean', 'AnyConn.connect', '⟨some ⟨⟨[], offer, n, false, ClientStack.new t⟩, []⟩, c.dropped', '⟨some ⟨⟨[10], offer, n, false, ClientStack.new t⟩, []⟩, c.dropped',
  'a limit is left on the reader of a new stream', 'C76: as over scripted streams')
m('any-05', 'ClientAny.lean', 'AnyConn.send', '    | (.ok, c, f) => c.sendOpen prof offer n f q', '    | (.ok, c, f) => (c.sendOpen prof offer n f q).2.1.sendOpen prof offer n (c.sendOpen prof offer n f q).2.2 q',
  'the first request is sent twice', 'C76: at most two streams per call')
m('any-06', 'ClientAny.lean', 'AnyConn.retry', '  | (.err e, c, f) => (.err (.connecting e), c, f)\n  | (.panic, c, f) => (.panic, c, f)\n  | (.ok, c, f) =>\n', '  | (.err e, c, f) => (.err (.connecting e), { c with stream := none }, f)\n  | (.panic, c, f) => (.panic, c, f)\n  | (.ok, c, f) =>\n',
  'the old stream is given up when connecting fails', 'C76: as over scripted streams (C46_reconnect_false is about the stream that is kept)')
# clients that never finish
m('endless-01', 'Parse.lean', 'CrlfLineParser.parse', 'match LineDeframer.parse line (push lim r) with', 'match LineDeframer.parse line (push (lim + 1000000000) r) with',
  'lines are not limited', 'C79: a first line without end is refused after 512 bytes')
m('endless-02', 'Parse.lean', 'HeadersParser.parse', 'match HeadersParser.loop prof (fuel r) p (push lim r) with', 'match HeadersParser.loop prof (fuel r) p (push (lim + 1000000000) r) with',
  'the header section is not limited', 'C79: headers without end are refused')
m('endless-03', 'Parse.lean', 'BodyParser.parse', 'match ChunksParser.loop prof (fuel r) p (push lim r) with', 'match ChunksParser.loop prof (fuel r) p (push (lim + 1000000000) r) with',
  'chunked bodies are not limited as a whole', 'C79: chunks without end are refused')
m('endless-04', '../Std/Io.lean', 'Rd.fillBufL', 'if l = 0 then (.error .limitReached, s)', 'if l = 0 then (.error .wouldBlock, s)',
  'a limit that is used up looks like a pause', 'C79: the server does not wait for more when the limit is reached')
# statuses
m('status-06', 'Status.lean', 'statusTable', '⟨426, b!"UPGRADE REQUIRED"⟩', '⟨426, b!"UPGRADE REQUIERD"⟩',
  'a misspelled reason', 'C21: the reasons are those of the registry')
m('status-07', 'Status.lean', 'statusTable', '  ⟨308, b!"PERMANENT REDIRECT"⟩,\n', '  ⟨306, b!"PERMANENT REDIRECT"⟩,\n',
  'a wrong code', 'C21: every registered code is known')
# the server over any streams
m('anet-01', 'NetAny.lean', 'ANet.onEvent', 'if !c.inTable then some s\n', 'if !c.inTable then none\n',
  'an event of a connection that is not in the table stops the loop', 'C78: a server over any streams does what one over scripted streams can do (and can do what it can do)')
m('anet-02', 'NetAny.lean', 'ANet.enter', '| .poisoned _ => (s.pool.step (.work w true)).map fun pool => { s with pool }', '| .poisoned _ => some ((s.setConn k { c with lock := some w }).setPhase w .leaving)',
  'a poisoned mutex does not take a worker', 'C78: as over scripted streams')
m('anet-03', 'NetAny.lean', 'ANet.advance', '    | (.error _, r) => unlessHung r ((s.setConn k { c with slot := .gone { conn with reader := r } }).setPhase w .leaving)\n    | (.ok (), r)', '    | (.error _, r) => unlessHung r ((s.setConn k { c with slot := .live { conn with reader := r } }).setPhase w .reading)\n    | (.ok (), r)',
  'an error while flushing is ignored', 'C78: as over scripted streams')
m('anet-04', 'NetAny.lean', 'ANet.advance', 'if shouldCloseAfterResponse q then unlessHung r ((s.setConn k { c with slot := .gone { conn', 'if shouldCloseAfterResponse q then unlessHung r ((s.setConn k { c with slot := .live { conn',
  'a connection that was to be closed is kept', 'C78: as over scripted streams')
m('anet-05', 'NetAny.lean', 'ANet.advance', 'asks := s.asks ++ [(k, q, s.state)], state := (rt.result q s.state).2 }', 'asks := s.asks ++ [(k, q, s.state)] }',
  'the state of the listeners is not updated', 'C78: the listeners see one order of requests')
m('anet-06', 'NetAny.lean', 'ANet.step', 'if s.phase w = .enter ∧ c.lock = none then s.enter w k c else none', 'if s.phase w = .enter then s.enter w k c else none',
  'the mutex does not exclude', 'C78: one worker at a time uses a connection')
m('anet-07', 'NetAny.lean', 'ANet.changedConn', '{ c with reader := { c.reader with stream', '{ c with parser := none, reader := { c.reader with stream',
  'what arrives resets the parser', 'C78: as over scripted streams')
m('anet-08', 'NetAny.lean', 'HttpsAct.act', '(.new cipher false [] ⟨evs, flushes, []⟩)', '(.new cipher true [] ⟨evs, flushes, []⟩)',
  'sessions of the server act as clients', 'C78: what the sockets sent')
m('anet-09', 'NetAny.lean', 'HttpsAct.act', '| .arrive k es => .change k fun t => { t with input := t.input ++ es }', '| .arrive k es => .change k fun t => { t with input := es ++ t.input }',
  'what arrives later is read first', 'C78: what a connection has read is a beginning of the plain text of what arrived')
m('anet-10', 'NetAny.lean', 'HttpsAct.act', '| .arrive k es => .change k fun', '| .arrive k es => .change (k + 1) fun',
  'what arrives goes to another connection', 'C78: what a connection has read arrived at its own socket')
m('anet-11', 'NetAny.lean', 'ANet.advance', '| (.notReady, conn) => some ((s.setConn k { c with slot := .live conn }).setPhase w .leaving)', '| (.notReady, conn) => some ((s.setConn k { c with slot := .live { conn with parser := none } }).setPhase w .leaving)',
  'a partial request is forgotten when there is nothing to read', 'C78: as over scripted streams')
m('anet-12', 'NetAny.lean', 'ANet.crash', '{ c with slot := .poisoned conn, lock := none } with pool }', '{ c with slot := .live conn, lock := none } with pool }',
  'a panic does not poison the mutex', 'C78: as over scripted streams')
# nothing is left lying
m('lying-01', 'Tls.lean', 'TlsStream.readLoop', '| (.ok true, t) => readLoop f t', '| (.ok true, t) => (.ok (), t)',
  'a read ends after one round of complete_io', 'C77: no request is left lying on a connection that is kept, also over TLS')
m('lying-02', 'Shared.lean', 'SharedConn.respondLoop', 'if shouldCloseAfterResponse q then (.drop, { c with reader := w }, s)\n        else respondLoop prof rt f', 'if true then (.keep, { c with reader := w }, s)\n        else respondLoop prof rt f',
  'one request per event', 'C77: no request is left lying')
# flushing
m('flush-01', 'Net.lean', 'Net.advance', '    | (.error _, wr) => some ((s.setConn k { c with slot := .gone { conn with writer := wr } }).setPhase w .leaving)\n    | (.ok (), wr)', '    | (.error _, wr) => some ((s.setConn k { c with slot := .live { conn with writer := wr } }).setPhase w .reading)\n    | (.ok (), wr)',
  'an error while flushing is ignored', 'C43/C60: as one handler after the other')

# what had not been broken before
m('status-08', 'Status.lean', 'statusTable', '  ⟨451, b!"UNAVAILABLE FOR LEGAL REASONS"⟩,\n', '',
  'a status is missing', 'C21: every registered final status code is known, but for 425')
m('server-15', 'Server.lean', 'handle', '| .gone c => (.done, .gone c, s)', '| .gone c => (.panic, .gone c, s)',
  'an event for a closed connection panics', 'C38: handling events for a connection that has been closed does nothing')
m('write-20', 'Writer.lean', 'HeaderMap.flat', 'm.flatMap fun e => e.2.map fun v => (e.1, v)', 'm.flatMap fun e => e.2.reverse.map fun v => (e.1, v)',
  'the values of a header are written in the wrong order', 'C39: each header value gets its own line, in order')
m('new-11', 'ClientNew.lean', 'newHttp', '(CPool.new cfg.numConnections threads).map fun p => (p, .new cfg connects)', 'if cfg.addr = [] then none else (CPool.new cfg.numConnections threads).map fun p => (p, .new cfg connects)',
  'an empty address is refused', 'C75: new_http makes a client whatever the address is')
# what listeners see was sent
m('sent-01', 'Net.lean', 'Net.advance', 'else some ((s.setConn k { c with slot := .live { conn with writer := wr } }).setPhase w .reading)\n    | (.err _, wr)', 'else some ((s.setConn k { c with slot := .live { conn with writer := wr } }).setPhase w (.asked q))\n    | (.err _, wr)',
  'a request is answered again', 'C81: no byte is part of two requests')
m('sent-02', 'Net.lean', 'Net.advance', '| (.ready q, conn) => some ((s.setConn k { c with slot := .live conn }).setPhase w (.asked q))', '| (.ready q, conn) => some ((s.setConn k { c with slot := .live conn }).setPhase w (.asked { q with uri := q.uri ++ b!"/" }))',
  'the URI is changed before a listener sees it', 'C81: the requests that listeners see were sent')

# the router of the tests
m('tests-01', 'TestServer.lean', 'Request.eq', ' && q.body == q\'.body', '',
  'requests are compared without their bodies', 'C82: each request gets its own response')
m('tests-02', 'TestServer.lean', 'HeaderMap.eq', 'm.length == m\'.length && ', '',
  'header maps are compared in one direction only', 'C82: each request gets its own response')
m('tests-03', 'TestServer.lean', 'testListener', '(some .next, s)', '(none, s)',
  'a listener panics on a request that is not its own', 'C82: every request is answered')

# threads that share a client over any streams
m('anypool-01', 'ClientPoolAny.lean', 'APool.step', '      | some _ => some { s with threads := s.threads.set t (.scanning q (i + 1)) }', '      | some (.held _) => some { s with locks := s.locks.set i (.held t), threads := s.threads.set t (.sending q i) }\n      | some _ => some { s with threads := s.threads.set t (.scanning q (i + 1)) }',
  'a connection that is in use is taken', 'C84: one thread at a time uses a connection')
m('anypool-02', 'ClientPoolAny.lean', 'APool.step', 'some { s with locks := s.locks.set i (.held t), threads', 'some { s with threads',
  'the lock is not taken', 'C84: one thread at a time uses a connection')
m('anypool-03', 'ClientPoolAny.lean', 'APool.step', 'locks := s.locks.set i .poisoned, threads', 'locks := s.locks.set i .free, threads',
  'a panic does not poison the mutex', 'C84: as threads over scripted streams')
m('anypool-04', 'ClientPoolAny.lean', 'APool.step', '| _ => some { conns := s.conns.set i c\', locks', '| _ => some { conns := s.conns, locks',
  'what a call did to the connection is forgotten', 'C84: each connection is what the calls on it make of it')
m('anypool-05', 'ClientPoolAny.lean', 'APool.step', '      match s.conns[i]? with\n      | none => none\n      | some c =>\n        let', '      match s.conns[0]? with\n      | none => none\n      | some c =>\n        let',
  'all threads use the first connection', 'C84: each thread gets the answer to its own request')
m('anypool-06', 'ClientPoolAny.lean', 'APool.step', 'let (x, c\', _) := (c.turn env n).send prof offer n f q', 'let (x, c\', _) := (c.turn env n).send prof offer n f { q with body := [] }',
  'the request is sent without its body', 'C84: each thread gets the answer to its own request')
m('anypool-07', 'ClientPoolAny.lean', 'APool.step', 'locks := s.locks.set i .free, threads := s.threads.set t .idle', 'locks := s.locks, threads := s.threads.set t .idle',
  'the lock is not given back', 'C84: as threads over scripted streams')
# connections that should end
m('closes-01', 'Net.lean', 'Net.advance', '| (_, wr) => some ((s.setConn k { c with slot := .gone { conn with writer := wr } }).setPhase w .leaving)', '| (_, wr) => some ((s.setConn k { c with slot := .live { conn with writer := wr } }).setPhase w .leaving)',
  'the connection is kept after something that is no request', 'C85: it is closed in the end')
m('closes-02', 'Net.lean', 'Net.advance', '| (.closed, conn) => some ((s.setConn k { c with slot := .gone conn }).setPhase w .leaving)', '| (.closed, conn) => some ((s.setConn k { c with slot := .live conn }).setPhase w .leaving)',
  'the connection is kept after the end of the stream', 'C85: it is closed in the end')
m('closes-03', 'Net.lean', 'Net.advance', 'if shouldCloseAfterResponse q then some', 'if false then some',
  'the connection is kept although the client asks for it to be closed', 'C85: it is closed in the end')
m('closes-04', 'Net.lean', 'Net.onEvent', 'else if closed then some (s.setConn k { c with inTable := false })', 'else if closed then some s',
  'a connection stays in the table when the client hangs up', 'C85: it is closed in the end')
m('closes-05', 'Net.lean', 'Net.advance', '| (.notReady, conn) => some ((s.setConn k { c with slot := .live conn, drained', '| (.notReady, conn) => some ((s.setConn k { c with slot := .gone conn, drained',
  'the connection is closed when there is nothing to read', 'C79/C80: an orderly client is answered')

# what becomes of streams that are dropped
m('notify-01', 'Tls.lean', 'TlsStream.drop', '(flush { t with sess := t.sess.sendCloseNotify }).2', '(flush t).2',
  'no close_notify is sent when a stream is dropped', 'C67, C76, C78, C85: a session that is dropped seals one close_notify')
m('notify-02', 'Tls.lean', 'TlsStream.drop', '(flush { t with sess := t.sess.sendCloseNotify }).2', '(flush { t with sess := t.sess.sendCloseNotify.sendCloseNotify }).2',
  'two close_notifies are sent', 'C67, C76, C78, C85: a session that is dropped seals exactly one close_notify')
m('notify-03', 'Tls.lean', 'TlsStream.drop', '(flush { t with sess := t.sess.sendCloseNotify }).2', '{ (flush t).2 with sess := (flush t).2.sess.sendCloseNotify }',
  'the close_notify is not flushed', 'C67: it is sent if the socket takes it')
m('notify-04', 'NetAny.lean', 'ANet.advance', '| (.closed, conn) => some ((s.setConn k { c with slot := .gone (droppedConn conn) })', '| (.closed, conn) => some ((s.setConn k { c with slot := .gone conn })',
  'a connection that has ended is not dropped', 'C78: the session of a dropped connection has sealed a close_notify')
m('notify-05', 'NetAny.lean', 'ANet.crash', 'slot := .poisoned (droppedConn conn)', 'slot := .poisoned conn',
  'a panic leaks the connection', 'C78: the session of a dropped connection has sealed a close_notify')
m('notify-06', 'NetAny.lean', 'ANet.advance', '| (.notReady, conn) => some ((s.setConn k { c with slot := .live conn })', '| (.notReady, conn) => some ((s.setConn k { c with slot := .live (droppedConn conn) })',
  'the session of a connection that goes on is closed', 'C78: the session of an open connection has sealed no close_notify')
m('notify-07', 'NetAny.lean', 'AConn.letGo', '| .live conn => { c with slot := .gone (droppedConn conn) }', '| .live conn => { c with slot := .gone conn }',
  'a connection whose last Arc goes is leaked', 'C85: then its session seals one close_notify')
m('notify-08', 'ClientAny.lean', 'AnyConn.connect', '(c.stream.map AnyStream.drop).toList', 'c.stream.toList',
  'the client leaks the stream it gives up', 'C76: its session has sealed a close_notify')
m('notify-09', 'ClientAny.lean', 'AnyStream.drop', 'inner := RawIO.dropped w.inner.val.inner', 'inner := w.inner.val.inner',
  'the stream below the buffer is leaked', 'C76: its session has sealed a close_notify')
m('notify-10', 'Tls.lean', 'TlsStream.flush', 'def flush (t : TlsStream) : Except IoError Unit × TlsStream :=\n  match t.completePriorIo with', 'def flush (t : TlsStream) : Except IoError Unit × TlsStream :=\n  match ({ t with sess := t.sess.sendCloseNotify } : TlsStream).completePriorIo with',
  'every flush sends a close_notify', 'C67, C76, C78: the session of a stream in use seals no close_notify')
# connections over TLS that should end
m('ends-01', 'NetAny.lean', 'ANet.advance', '| (.closed, conn) => some ((s.setConn k { c with slot := .gone (droppedConn conn) })', '| (.closed, conn) => some ((s.setConn k { c with slot := .live conn })',
  'the connection is kept after the end of the stream', 'C85: it is closed in the end')
m('ends-02', 'NetAny.lean', 'ANet.advance', '| (_, r) => unlessHung r ((s.setConn k { c with slot := .gone (droppedConn { conn with reader := r }) }).setPhase w .leaving)\n    | (.panic', '| (_, r) => unlessHung r ((s.setConn k { c with slot := .live { conn with reader := r } }).setPhase w .leaving)\n    | (.panic',
  'the connection is kept after a failed read', 'C85: it is closed in the end')
m('ends-03', 'NetAny.lean', 'ANet.advance', '| (.error _, r) => unlessHung r ((s.setConn k { c with slot := .gone (droppedConn { conn with reader := r }) })', '| (.error _, r) => unlessHung r ((s.setConn k { c with slot := .live { conn with reader := r } })',
  'the connection is kept after a failed flush', 'C85: it is closed in the end')
m('ends-04', 'NetAny.lean', 'ANet.onEvent', 'else if closed then some (s.setConn k { c with inTable := false })', 'else if closed then some s',
  'a connection stays in the table when the client hangs up', 'C85: it is closed in the end')
m('ends-05', 'Tls.lean', 'TlsStream.completeLoop', 'if untilDone && t.sess.handshaking then (.error .unexpectedEof, t) else (.ok didRead, t)', 'if untilDone && t.sess.handshaking then (.error .wouldBlock, t) else (.ok didRead, t)',
  'the end of the TCP stream in the handshake is taken for a pause', 'C85: it is closed in the end')
m('ends-06', 'Tls.lean', 'TlsStream.completeLoop', '| .bad :: es => refuse { t with input := es }', '| .bad :: es => (.ok true, { t with input := es })',
  'bytes that are not valid TLS are skipped', 'C85: the connection is closed in the end')
m('ends-07', 'Tls.lean', 'TlsStream.refuse', '(.error .invalidData, lastGasp', '(.error .wouldBlock, lastGasp',
  'invalid TLS is reported as a pause', 'C85: the connection is closed in the end')
m('ends-08', 'Tls.lean', 'TlsStream.completeLoop', '| .err e :: es => (.error e, { t with input := es })', '| .err e :: es => (.error .wouldBlock, { t with input := es })',
  'a failure of the TCP stream is reported as a pause', 'C85: the connection is closed in the end')
m('ends-09', 'Tls.lean', 'TlsStream.writeTls', '| (x, sock, out) => (x, { t with', '| (.error .other, sock, out) => (.ok 0, { t with sess := { t.sess with out }, sock })\n  | (x, sock, out) => (x, { t with',
  'a reset connection is not noticed when writing', 'C67: what writing reports')
m('ends-10', 'Tls.lean', 'TlsSession.read', 'if s.plain = [] ∧ s.peerEof then (.error .connectionAborted, s)', 'if s.plain = [] ∧ s.peerEof then (.error .wouldBlock, s)',
  'a close_notify of the peer is reported as a pause', 'C67: a close_notify is reported')


# how much the client reads, in the scripted model and over streams of any kind alike
CA, SH, BS = 'Verif/Model/ClientAny.lean', 'Verif/Model/Shared.lean', 'Verif/Model/BufStream.lean'
m('reads-01', 'Client.lean', 'sendRequest', '    | (.perr e, rd) => (.err (.responseParsing e), { s with reader := rd, writer := w })', """    | (.perr e, rd) =>
      match ResponseParser.parse prof .new rd with
      | (.done r, rd) => (.ok r, { s with reader := rd, writer := w })
      | (_, rd) => (.err (.responseParsing e), { s with reader := rd, writer := w })""",
  'after an answer that is no response the next one is tried', 'C86: an attempt reads one first line, one header section and one body at most')
also('reads-01', (SH, '    | (.perr e, x) => (.err (.responseParsing e), x)', """    | (.perr e, x) =>
      match ResponseParser.parse prof .new x with
      | (.done r, x) => (.ok r, x)
      | (_, x) => (.err (.responseParsing e), x)"""))
m('reads-02', 'Parse.lean', 'BodyParser.parse', '      match BytesUntilEofDeframer.parse d (push lim r) with\n      | (o, r) => (o.bind .untilEof .done, pop r)', '      match BytesUntilEofDeframer.parse d r with\n      | (o, r) => (o.bind .untilEof .done, r)',
  'a body up to the end of the stream has no limit', 'C86: a body of more than 3 MiB is not read; C19')
m('reads-03', 'Client.lean', 'ClientStream.open', 'cap := 8192, capPos', 'cap := 65536, capPos',
  'the client reads ahead 64 KiB', 'C86: it reads at most 8 KiB ahead')
also('reads-03', (BS, '⟨⟨[], 8192, ⟨⟨8192, [], t⟩⟩⟩⟩', '⟨⟨[], 8192, ⟨⟨65536, [], t⟩⟩⟩⟩'))
m('reads-04', 'Client.lean', 'ClientConn.retry', """    | some s =>
      let (x, s) := sendRequest prof s q
      (x, { c with stream := some s }, f)""", """    | some s =>
      let (x, s) := sendRequest prof s q
      match x with
      | .err (.reading _) => let (x, s) := sendRequest prof s q; (x, { c with stream := some s }, f)
      | x => (x, { c with stream := some s }, f)""",
  'when the answer to the second attempt can not be read there is a third one', 'C86: a call makes at most two attempts; C45')
also('reads-04', (CA, '    | some x => ((x.send prof q).1, { c with stream := some (x.send prof q).2 }, f)', """    | some x =>
      match x.send prof q with
      | (.err (.reading _), x) => ((x.send prof q).1, { c with stream := some (x.send prof q).2 }, f)
      | (o, x) => (o, { c with stream := some x }, f)"""))
m('reads-05', 'Parse.lean', 'BodyParser.parse', '      match ChunksParser.loop prof (fuel r) p (push lim r) with\n      | (o, r) => (o.bind .chunked .done, pop r)', '      match ChunksParser.loop prof (fuel r) p r with\n      | (o, r) => (o.bind .chunked .done, r)',
  'a chunked body has no limit', 'C86: a body of more than 3 MiB is not read; C19')
m('reads-06', 'Shared.lean', 'Shared.readToEndLoop', 'match readL ls s (offer acc.length + 1) with', 'match readL [] s (offer acc.length + 1) with',
  'reading to the end of the stream goes past the limits', 'C86: over streams of any kind, at most 3 MiB of a body are read')
# calls and streams that were given up
m('calls-01', 'Client.lean', 'ClientConn.connect', '| (.ok s, f) => (.ok, ⟨some (.open s), c.dropped ++ (c.stream.map ClientStream.drop).toList⟩, f)', """| (.ok s, f) =>
    (.ok, ⟨some { ClientStream.open s with writer := { (ClientStream.open s).writer with buf := (c.stream.map fun x => x.writer.buf).getD [] } },
      c.dropped ++ (c.stream.map ClientStream.drop).toList⟩, f)""",
  'what was not sent on the old stream is sent on the new one', 'C76, C83: what is sent on each stream is the requests given to it')
also('calls-01', (CA, '| (.ok t, f) => (.ok, ⟨some ⟨⟨[], offer, n, false, ClientStack.new t⟩, []⟩,', """| (.ok t, f) => (.ok, ⟨some ⟨⟨[], offer, n, false, ⟨{ (ClientStack.new t).val with buf := (c.stream.map fun x => x.shared.stream.val.buf).getD [] }⟩⟩, []⟩,"""))
m('calls-02', 'Client.lean', 'ClientConn.connect', '| (.ok s, f) => (.ok, ⟨some (.open s), c.dropped ++ (c.stream.map ClientStream.drop).toList⟩, f)', """| (.ok s, f) =>
    (.ok, ⟨some { ClientStream.open s with reader := ⟨[], { (ClientStream.open s).reader.src with buf := (c.stream.map fun x => x.reader.src.buf).getD [] }⟩ },
      c.dropped ++ (c.stream.map ClientStream.drop).toList⟩, f)""",
  'what was read ahead from the old stream is taken for an answer on the new one', 'C76, C83: after a new stream was made the answers are right again')
also('calls-02', (CA, '| (.ok t, f) => (.ok, ⟨some ⟨⟨[], offer, n, false, ClientStack.new t⟩, []⟩,', """| (.ok t, f) => (.ok, ⟨some ⟨⟨[], offer, n, false,
    ⟨{ (ClientStack.new t).val with inner := ⟨{ (ClientStack.new t).val.inner.val with buf := (c.stream.map fun x => x.shared.stream.val.inner.val.buf).getD [] }⟩ }⟩⟩, []⟩,"""))
m('calls-03', 'ClientAny.lean', 'AnyConn.sendOpen', '| (.err _, x) => AnyConn.retry prof offer n { c with stream := some x } f q', '| (.err _, x) => AnyConn.retry prof offer n { c with stream := some x } f { q with headers := [] }',
  'the second attempt leaves out the headers', 'C76: both attempts send the request')
m('calls-04', 'ClientAny.lean', 'AnyStream.send', '((Shared.sendRequest prof x.shared q).1, ⟨(Shared.sendRequest prof x.shared q).2, x.asked ++ [q]⟩)', '((Shared.sendRequest prof x.shared q).1, ⟨{ (Shared.sendRequest prof x.shared q).2 with lims := [4096] }, x.asked ++ [q]⟩)',
  'a limit of the first response stays on the stream', 'C76, C83: each call returns the answer to its own request')

# sockets that always take more
m('room-01', 'Tls.lean', 'TlsStream.flush', """    if t.sess.wantsWrite then
      match t.completeIo with
      | (.error e, t) => (.error e, t)
      | (.ok _, t) => (.ok (), t)
    else (.ok (), t)""", """    (.ok (), t)""",
  'flush of a TLS stream does only what was begun before', 'C80, C85: whenever no handler uses a connection all is sent, also when it is dropped')
m('room-02', 'Writer.lean', 'writeResponse', """  andThen (res (write w r.body)) fun w =>
  res (flush w)""", """  andThen (res (flush w)) fun w =>
  res (write w r.body)""",
  'the body is written after the flush', 'C80_tls_drained: nothing is left in the writer; C68')
m('room-03', 'Server.lean', 'writeErrorResponse', 'andThen (writeAll w badRequestResponse) fun w => res (flush w)', 'writeAll w badRequestResponse',
  'the answer to a request that is not valid is not flushed', 'C85_tls_refused_sent: it is sent')
m('room-04', 'NetAny.lean', 'ANet.advance', """      if shouldCloseAfterResponse q then unlessHung r ((s.setConn k { c with slot := .gone (droppedConn { conn with reader := r }) }).setPhase w .leaving)""",
  """      if shouldCloseAfterResponse q then unlessHung r ((s.setConn k { c with slot := .gone (droppedConn { conn with reader := { conn.reader with rounds } }) }).setPhase w .leaving)""",
  'when the request asks for the connection to be closed it is dropped as it was before the answer was written', 'C85_tls_asked_sent: the answer is sent')
m('room-05', 'Tls.lean', 'TlsSession.sendCloseNotify', 's.send .closeNotify', '{ s with out := [] }.send .closeNotify',
  'close_notify replaces what was sealed and not sent', 'C85_tls_emptied, C71: what is sent on the socket is what was sealed')
m('room-06', 'Tls.lean', 'TlsStream.drop', '(flush { t with sess := t.sess.sendCloseNotify }).2', 'lastGasp { t with sess := t.sess.sendCloseNotify }',
  'when it is dropped a TLS stream writes to the socket once', 'C85_tls_emptied: all is sent when the connection is closed, if the socket takes more')
m('room-07', 'Tls.lean', 'TlsStream.write', '(.ok b.length, (completeIo { t with sess := t.sess.write b }).2)', '(.ok b.length, { t with sess := t.sess.write b })',
  'a write to a TLS stream seals and does not send', 'C80_tls_roomy: whenever no handler uses a connection its session has sent all')

# pauses anywhere in a request
m('pause-01', 'Parse.lean', 'tailingCrlfState', 'o.bind (.tailingCrlf · isLast) fun line', 'o.bind (.tailingCrlf · false) fun line',
  'a pause in the line end after the last chunk makes it one that is followed by others', 'C02: a request is received whatever the pauses')
m('pause-02', 'Parse.lean', 'tailingCrlfState', 'o.bind (.tailingCrlf · isLast) fun line', 'o.bind (fun _ => .tailingCrlf [] isLast) fun line',
  'a pause between CR and LF after a chunk loses the CR', 'C02: a request is received whatever the pauses')
m('pause-03', 'Parse.lean', 'sizeState', '(o.bind .size fun raw =>', '(o.bind (fun _ => .size []) fun raw =>',
  'a pause in the size of a chunk loses the digits before it', 'C02: a request is received whatever the pauses')
m('pause-04', 'Parse.lean', 'dataState', '(o.bind .data fun d =>', '(o.bind (fun p => .data ⟨p.size - p.filled.length, []⟩) fun d =>',
  'a pause in the data of a chunk loses the data before it', 'C02: a request is received whatever the pauses, also in a chunk')
m('pause-05', 'Parse.lean', 'headersState', '(o.bind (.headers first) fun hs =>', '(o.bind (fun p => .headers first { p with read := 0 }) fun hs =>',
  'with each pause the limit of the header section starts anew', 'C03, C19: the header section is limited however it arrives')
m('pause-06', 'Parse.lean', 'bodyState', '(o.bind (.body first hs) fun b =>', '(o.bind (.body first []) fun b =>',
  'a pause in the body loses the headers', 'C02: the request received is the one sent')
m('pause-07', 'Parse.lean', 'firstLineState', '(o.bind .firstLine fun l =>', '(o.bind (fun _ => .firstLine []) fun l =>',
  'a pause in the request line loses what came before it', 'C02: a request is received whatever the pauses')
m('pause-08', 'Parse.lean', 'readLine', """    else match o with
      | .ok => (.err .invalidData, line, r)
      | o => (o, line, r)""", """    else (.err .invalidData, line, r)""",
  'a pause inside a character of a line is an error of its own', 'C02: what a pause inside a character of a line does (the bytes before it are lost, and there is no error)')
m('pause-09', 'Parse.lean', 'BodyParser.readSoFar', '| .withSize p => p.size', '| .withSize p => p.size + p.filled.length',
  'after a pause a large body has no room left', 'C02: a request is received whatever the pauses, if it fits the limits')
m('pause-10', 'Parse.lean', 'HeadersParser.loop', '| (.io inner e, r) => (.io { p with inner } e, r)', '| (.io inner e, r) => (.io { p with inner, read := p.read + inner.length } e, r)',
  'the part of a line before a pause counts twice towards the limit of the header section', 'C02: a request that fits the limits is received whatever the pauses')


# slow clients
m('slow-01', 'Parse.lean', 'HeadersParser.loop', '⟨[], p.headers.addHeader h v, p.read + line.length⟩', '⟨[], p.headers.addHeader h v, p.read + line.length + 2⟩',
  'the ends of header lines count towards the limit of the section', 'C79_server: header lines of which a divisor of 4096 or 4095 bytes are counted are refused at any pace')
m('slow-02', 'Parse.lean', 'HeadersParser.parse', 'match prof.sub maxHeadersSize p.read with', 'match prof.sub maxHeadersSize (p.read + p.inner.length) with',
  'the part of a line before a pause counts towards the limit of the header section', 'C79_lines_release_false: a slow client steps over the limit')
m('slow-03', 'Parse.lean', 'BodyParser.readSoFar', '| .chunked p => p.body.length', '| .chunked p => min maxBodySize p.body.length',
  'the room left for a chunked body does not go below nothing', 'C79_chunks_release_false, C79_chunks_debug_false')
m('slow-04', 'Parse.lean', 'Profile.sub', 'some (usizeBound + a - b)', 'some 0',
  'subtractions saturate in release builds', 'C79_release_false, C79_chunks_release_false')
m('slow-05', 'Parse.lean', 'ChunksParser.loop', '| (.io st e, r) => (.io ⟨body, st⟩ e, r)\n      | (.perr e, r) => (.perr e, r)\n      | (.panic, r) => (.panic, r)\n      | (.diverge, r) => (.diverge, r)\n    | .tailingCrlf', '| (.io st e, r) => (.io ⟨body ++ p.filled, st⟩ e, r)\n      | (.perr e, r) => (.perr e, r)\n      | (.panic, r) => (.panic, r)\n      | (.diverge, r) => (.diverge, r)\n    | .tailingCrlf',
  'what came of a chunk before an earlier pause is put into the body twice', 'C02: the body received is the one sent, whatever the pauses')
m('slow-06', 'Server.lean', 'Conn.readRequest', 'else if isClosed p e then', 'else if isClosed p e || e = .limitReached then',
  'a client over a limit is dropped without an answer', 'C79_server: a client that goes on without end gets one 400 response')
also('slow-05', ('Verif/Proofs/Fuel.lean', '((dataState p body r).1.bind (fun st => ⟨body, st⟩)', '((dataState p body r).1.bind (fun st => ⟨body ++ p.filled, st⟩)'))

m('anypool-08', 'ClientPoolAny.lean', 'APool.step', '      | some _ => some { s with threads := s.threads.set t (.scanning q (i + 1)) }', '      | some _ => some { s with threads := s.threads.set t (.scanning q 0) }',
  'after a connection that is in use the search begins again with the first one', 'C84: a call finds a connection that stays free')
m('anypool-09', 'ClientPoolAny.lean', 'APool.step', '      | none => some { s with threads := s.threads.set t (.scanning q 0) }', '      | none => some { s with threads := s.threads.set t .idle }',
  'a call gives up when all connections are in use', 'C84: a call goes on looking until it has found a connection')
m('anypool-10', 'ClientPoolAny.lean', 'APool.step', '      | some _ => some { s with threads := s.threads.set t (.scanning q (i + 1)) }', '      | some _ => some { s with threads := s.threads.set t (.scanning q (i + 2)) }',
  'after a connection that is in use the next one is passed over', 'C84: a call finds a connection that stays free')
m('slow-07', 'Parse.lean', 'sizeState', '.done (.data ⟨n, []⟩)', '.done (.data ⟨n + 1, []⟩)',
  'the data of a chunk is one byte longer than announced', 'C08, C79: chunks are read as they were sent')
m('slow-08', 'Parse.lean', 'dataState', '.done (.tailingCrlf [] d.isEmpty, body ++ d)', '.done (.tailingCrlf [] d.isEmpty, body ++ d.take 1048576)',
  'of each chunk at most 1 MiB is kept and counts towards the limit of the body', 'C08, C14, C79: the data of all chunks is the body')
m('backlog-01', 'Net.lean', 'Net.step', 'if k ∈ ks then { c with edge := false } else c', 'c',
  'connections are registered level-triggered, so that one is reported again and again', 'C87: a connection has no more jobs than there were reasons to report it')
m('backlog-02', 'Net.lean', 'onEvent', 's.jobs ++ [(k, c.arrived.length)] else s.jobs', 's.jobs ++ [(k, c.arrived.length), (k, c.arrived.length)] else s.jobs',
  'two jobs are noted for each event, one of them submitted', 'C43, C87: each job is submitted for an event')

# definitions that were not edited before
m('def-01', 'NetAny.lean', 'droppedConn', 'SharedConn (ServerStack T) := changedConn RawIO.dropped c', 'SharedConn (ServerStack T) := c',
  'nothing is done to the stream of a connection that a handler drops', 'C78, C85: over TLS the end of the session is announced before the stream is closed')
m('def-02', 'BufStream.lean', 'StdWriter.flush', '(Wr.flush f w.inner).map fun x => (x.1, { w with inner := x.2 })', 'some (.ok (), w)',
  'flushing the writer of the client does not flush the stream below it', 'C58, C71, C76: what was flushed was given to the stream, which was told to send it')
m('def-03', 'Tls.lean', 'wantsRead', 's.plain.isEmpty', '!s.handshaking && s.plain.isEmpty',
  'the session does not want to read during the handshake', 'C67: the handshake is completed by reading and writing')
m('def-04', 'Client.lean', 'ClientStream.drop', '{ s with writer := s.writer.flushBuf.2 }', 's',
  'dropping the stream of the client does not flush its writer', 'C46, C76: what a stream that is dropped sends')
m('def-05', 'Lifecycle.lean', 'dropTable', 'fun c => { c with inTable := false } }', 'fun c => c }',
  'the table of connections is not dropped when the event loop ends', 'C73: connections end with the event loop')
m('def-06', 'BufStream.lean', 'flushInner', '| (.error .wouldBlock, t) => (.ok (), { w with inner := t })', '| (.error .interrupted, t) => (.ok (), { w with inner := t })',
  'a stream that has no room when it is flushed is an error, and an interruption is not', 'C58, C71: a socket without room is no reason to close the connection')
m('def-07', 'Net.lean', 'writeAnswer', 'Write.andThen (Write.writeAll w notFoundResponse) fun w => Write.res (Write.flush w)', 'Write.writeAll w notFoundResponse',
  'the 404 response is not flushed', 'C34, C37, C62: every request is answered')
m('def-08', 'ThreadPool.lean', 'Worker.alive', '| .exited | .crashed | .failed => false', '| .exited | .failed => false',
  'a worker that panicked keeps the receiver of the jobs', 'C42, C55: the pool is closed when all workers have ended')
m('def-09', 'Slab.lean', 'listenerToken', '2 ^ 64 - 1', '0',
  'the listener has the token of the first connection', 'C28, C29: every event reaches the connection it belongs to')
m('def-10', 'Status.lean', 'versionSupported', 'raw = http11 || raw = http10', 'raw = http11',
  'HTTP/1.0 is not supported', 'C20: the versions 1.0 and 1.1 are accepted')
m('def-11', 'Router.lean', 'sliceFrom', 'some (s.drop n)', 'some (s.drop (n - 1))',
  'a router below a prefix sees the last byte of the prefix too', 'C23, C25: what a nested router is asked about')

# The limits of a reader by themselves.
m('lim-01', '../Std/Io.lean', 'Rd.consumeL', '((l - amt) :: ls', '(l :: ls',
  'consume does not lower the limit', 'C89: at most as many bytes are delivered as each limit allows')
m('lim-02', '../Std/Io.lean', 'Rd.fillBufL', '      | (.ok b, s) => (.ok (b.take l), s)', '      | (.ok b, s) => (.ok b, s)',
  'fill_buf offers more than the limit', 'C89: at most as many bytes are delivered as each limit allows')
m('lim-03', '../Std/Io.lean', 'Rd.readL', '(l - b.length) :: ls', 'l :: ls',
  'read does not lower the limit', 'C89: at most as many bytes are delivered as each limit allows')
m('lim-04', '../Std/Io.lean', 'Rd.readL', 'readL ls s (min n l)', 'readL ls s n',
  'read does not shorten the destination to the limit', 'C89: at most as many bytes are delivered as each limit allows')
m('lim-05', '../Std/Io.lean', 'Rd.readL', 'if l = 0 then (.error .limitReached, l :: ls, s)', 'if l ≤ 1 then (.error .limitReached, l :: ls, s)',
  'the last byte before the limit is not delivered', 'C89: the limit is not reached before as many bytes were delivered')
m('lim-06', '../Std/Io.lean', 'Rd.readL', 'if l = 0 then (.error .limitReached, l :: ls, s)', 'if l = 0 then (.ok [], l :: ls, s)',
  'at the limit read reports the end of the stream, as Take does', 'C89: at the limit everything fails')

if __name__ == '__main__':
    sel = sys.argv[1:]
    for d in out:
        if not sel or any(d['id'].startswith(s) for s in sel):
            print(json.dumps(d))
