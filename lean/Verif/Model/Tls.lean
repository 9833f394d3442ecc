import Verif.Model.BufStream

/-!
`src/util/tls_stream.rs`: a TLS session over a TCP stream.

The file wraps `rustls::StreamOwned` (rustls 0.18, Cargo.toml 8), so that type is modelled here too, from the source and documentation of
rustls: `Stream::{complete_prior_io, read, write, flush}` and `Session::complete_io` are followed step by step. The record layer
and the handshake are idealised: a `read` of the TCP stream brings bytes that amount to something (`TlsEv`), and what is written is
sealed by an arbitrary function (`Cipher`). That the peer can open what was sealed, and nobody else can, is not part of the model.
-/

namespace Verif

/-- What a `read` on the TCP stream below finds, as it looks after `process_new_packets`. -/
inductive TlsEv
  /-- Valid bytes: whether they end the handshake, the plain text of the records that became complete, whether there was a close_notify alert
  among them, and whether an answer is put into `sendable_tls` at once (to handshake messages, and to a request to
  renegotiate in TLS 1.2). The answer to a key update in TLS 1.3 goes out with the next write; it has no plain text and is left out. -/
  | records (ends : Bool) (plain : Bytes) (close reply : Bool)
  /-- Bytes that are not valid TLS, or an alert that says that something is wrong. -/
  | bad
  /-- The TCP stream is at its end. -/
  | eof
  | err (e : IoError)
  deriving DecidableEq, Repr

/-- What a session sends. -/
inductive TlsItem
  | data (b : Bytes)
  | reply
  | alert
  | closeNotify
  deriving DecidableEq, Repr

/-- How a session turns what it sends into bytes; the number says how many things were sent before. -/
structure Cipher where
  sealed : Nat → TlsItem → Bytes

/-- `rustls::Session` (a `ServerSession` or `ClientSession`). The fields `log` and `came` are not in the program; they record, for statements only,
what was sealed and all plain text that came. -/
structure TlsSession where
  cipher : Cipher
  /-- `is_handshaking` -/
  handshaking : Bool
  /-- `received_plaintext` -/
  plain : Bytes
  /-- `peer_eof` -/
  peerEof : Bool
  /-- `process_new_packets` has failed; it goes on failing -/
  failed : Bool
  /-- `sendable_tls` -/
  out : Bytes
  log : List TlsItem
  came : Bytes

namespace TlsSession

/-- A session puts something into `sendable_tls`. -/
def send (s : TlsSession) (x : TlsItem) : TlsSession := { s with out := s.out ++ s.cipher.sealed s.log.length x, log := s.log ++ [x] }

/-- A new session. A client has something to say first. -/
def new (cipher : Cipher) (client : Bool) : TlsSession :=
  let s : TlsSession := ⟨cipher, true, [], false, false, [], [], []⟩
  if client then s.send .reply else s

/-- `Session::wants_write`. -/
def wantsWrite (s : TlsSession) : Bool := !s.out.isEmpty

/-- `Session::wants_read`. -/
def wantsRead (s : TlsSession) : Bool := s.plain.isEmpty

/-- `read_tls` and `process_new_packets` with valid bytes. There is no plain text before the handshake has ended. -/
def take (s : TlsSession) (ends : Bool) (plain : Bytes) (close reply : Bool) : TlsSession :=
  let h := s.handshaking && !ends
  let s := { s with handshaking := h, plain := if h then s.plain else s.plain ++ plain, came := if h then s.came else s.came ++ plain,
                    peerEof := s.peerEof || close }
  if reply then s.send .reply else s

/-- `Session::read`: "If the peer closes the TLS connection cleanly, this fails with an error of kind ErrorKind::ConnectionAborted once all the pending
data has been read." -/
def read (s : TlsSession) (n : Nat) : Except IoError Bytes × TlsSession :=
  if s.plain = [] ∧ s.peerEof then (.error .connectionAborted, s)
  else (.ok (s.plain.take n), { s with plain := s.plain.drop n })

/-- `Session::write`: without a limit everything is taken. (With a handshake in progress the data would wait for its end; `TlsStream` does not let that happen,
see `C67_no_early_data`.) -/
def write (s : TlsSession) (b : Bytes) : TlsSession := if b = [] then s else s.send (.data b)

/-- `Session::send_close_notify`. -/
def sendCloseNotify (s : TlsSession) : TlsSession := s.send .closeNotify

end TlsSession

/-- `TlsStream`, tls_stream.rs 9, `rustls::StreamOwned`: the session, and the TCP stream below: what its reads will find, and its writing
side. The script of reads once used up, the TCP stream finds nothing to read (`WouldBlock`). -/
structure TlsStream where
  sess : TlsSession
  input : List TlsEv
  sock : Sock

namespace TlsStream

/-- `TlsStream::new`, tls_stream.rs 15-17. -/
def new (cipher : Cipher) (client : Bool) (input : List TlsEv) (sock : Sock) : TlsStream := ⟨.new cipher client, input, sock⟩

/-- `while self.wants_write() { wrlen += self.write_tls(io)?; }` in `complete_io`; how many bytes were written. -/
def pushOut (fl : List (Option IoError)) : List WEv → Bytes → Bytes → Nat → Except IoError Nat × Sock × Bytes
  | evs, sent, [], n => (.ok n, ⟨evs, fl, sent⟩, [])
  | [], sent, b, _ => (.error .wouldBlock, ⟨[], fl, sent⟩, b)
  | .err e :: es, sent, b, _ => (.error e, ⟨es, fl, sent⟩, b)
  | .accept k :: es, sent, b, n => pushOut fl es (sent ++ b.take k) (b.drop k) (n + min k b.length)

/-- The same for a stream. -/
def writeTls (t : TlsStream) : Except IoError Nat × TlsStream :=
  match pushOut t.sock.flushes t.sock.evs t.sock.sent t.sess.out 0 with
  | (x, sock, out) => (x, { t with sess := { t.sess with out }, sock })

/-- One `write_tls`, with its result ignored. -/
def lastGasp (t : TlsStream) : TlsStream :=
  match t.sock.write t.sess.out with
  | (.ok n, sock) => { t with sess := { t.sess with out := t.sess.out.drop n }, sock }
  | (.error _, sock) => { t with sock }

/-- `process_new_packets` fails, in `complete_io`. -/
def refuse (t : TlsStream) : Except IoError Bool × TlsStream :=
  (.error .invalidData, lastGasp { t with sess := if t.sess.failed then t.sess else { t.sess with failed := true }.send .alert })

/-- The loop of `Session::complete_io`; `wrote` and `didRead` say whether bytes were written and read in earlier rounds. The result says whether
bytes were read. A further round is made only during the handshake, and then something was read in this round; so the recursion is over the script. -/
def completeLoop (untilDone : Bool) : List TlsEv → TlsSession → Sock → (wrote didRead : Bool) → Except IoError Bool × TlsStream
  | input, sess, sock, wrote, didRead =>
    match writeTls ⟨sess, input, sock⟩ with
    | (.error e, t) => (.error e, t)
    | (.ok n, t) =>
      let wrote := wrote || decide (0 < n)
      if !untilDone && wrote then (.ok didRead, t)
      else if t.sess.wantsRead then
        match input with
        | [] => (.error .wouldBlock, t)
        | .err e :: es => (.error e, { t with input := es })
        | .eof :: es =>
          let t := { t with input := es }
          if t.sess.failed then t.refuse
          else if untilDone && t.sess.handshaking then (.error .unexpectedEof, t) else (.ok didRead, t)
        | .bad :: es => refuse { t with input := es }
        | .records ends plain close reply :: es =>
          if t.sess.failed then refuse { t with input := es }
          else
            let s := t.sess.take ends plain close reply
            if untilDone && s.handshaking then completeLoop untilDone es s t.sock wrote true else (.ok true, ⟨s, es, t.sock⟩)
      else if t.sess.failed then t.refuse
      else (.ok didRead, t)

/-- `Session::complete_io`. -/
def completeIo (t : TlsStream) : Except IoError Bool × TlsStream := completeLoop t.sess.handshaking t.input t.sess t.sock false false

/-- `Stream::complete_prior_io`. -/
def completePriorIo (t : TlsStream) : Except IoError Unit × TlsStream :=
  match (if t.sess.handshaking then t.completeIo else (.ok false, t)) with
  | (.error e, t) => (.error e, t)
  | (.ok _, t) =>
    match (if t.sess.wantsWrite then t.completeIo else (.ok false, t)) with
    | (.error e, t) => (.error e, t)
    | (.ok _, t) => (.ok (), t)

/-- `while self.sess.wants_read() && self.sess.complete_io(self.sock)?.0 != 0 { }` in `Stream::read`; each round reads something, so the length of the script
bounds their number. -/
def readLoop : Nat → TlsStream → Except IoError Unit × TlsStream
  | 0, t => (.ok (), t)
  | f + 1, t =>
    if t.sess.wantsRead then
      match t.completeIo with
      | (.error e, t) => (.error e, t)
      | (.ok true, t) => readLoop f t
      | (.ok false, t) => (.ok (), t)
    else (.ok (), t)

/-- `Read for TlsStream`, tls_stream.rs 20-24; `Stream::read`. -/
def read (t : TlsStream) (n : Nat) : Except IoError Bytes × TlsStream :=
  match t.completePriorIo with
  | (.error e, t) => (.error e, t)
  | (.ok (), t) =>
    match readLoop (t.input.length + 1) t with
    | (.error e, t) => (.error e, t)
    | (.ok (), t) => ((t.sess.read n).1, { t with sess := (t.sess.read n).2 })

/-- `write` for `TlsStream`, tls_stream.rs 27-29; `Stream::write`. -/
def write (t : TlsStream) (b : Bytes) : Except IoError Nat × TlsStream :=
  match t.completePriorIo with
  | (.error e, t) => (.error e, t)
  | (.ok (), t) => (.ok b.length, (completeIo { t with sess := t.sess.write b }).2)

/-- `flush` for `TlsStream`, tls_stream.rs 31-33; `Stream::flush` (`Session::flush` does nothing). -/
def flush (t : TlsStream) : Except IoError Unit × TlsStream :=
  match t.completePriorIo with
  | (.error e, t) => (.error e, t)
  | (.ok (), t) =>
    if t.sess.wantsWrite then
      match t.completeIo with
      | (.error e, t) => (.error e, t)
      | (.ok _, t) => (.ok (), t)
    else (.ok (), t)

/-- `Drop for TlsStream`, tls_stream.rs 36-41: what became of the stream. -/
def drop (t : TlsStream) : TlsStream := (flush { t with sess := t.sess.sendCloseNotify }).2

end TlsStream

instance : RawIO TlsStream where
  write _ t b := some (t.write b)
  flush _ t := some t.flush
  read t n := t.read n
  dropped := TlsStream.drop

end Verif
