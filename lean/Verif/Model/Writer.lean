import Verif.Std.Io
import Verif.Model.Message

/-!
`src/server/nonblocking_buf_writer.rs`, and `std::io` writing: a raw stream, `write_all`, `write!`, and
`BufWriter`; then `write_response` (`src/server/server.rs`) and `write_request` (`src/client/client.rs`).

The raw stream is a script of what successive `write` calls do. Once it is used up every further `write`
finds no room (`WouldBlock`).
-/

namespace Verif

/-- What a raw `write` does: take at most `n` bytes, or fail. -/
inductive WEv
  | accept (n : Nat)
  | err (e : IoError)
  deriving DecidableEq, Repr

/-- The writing side of a raw stream: what its next `write` and `flush` calls do (`none` is success; when the
list is used up, `flush` succeeds), and the bytes it has taken. -/
structure Sock where
  evs : List WEv
  flushes : List (Option IoError)
  sent : Bytes
  deriving DecidableEq, Repr

namespace Sock

/-- `write` of the raw stream. -/
def write (s : Sock) (b : Bytes) : Except IoError Nat × Sock :=
  match s.evs with
  | [] => (.error .wouldBlock, s)
  | .err e :: es => (.error e, { s with evs := es })
  | .accept n :: es => (.ok (min n b.length), { s with evs := es, sent := s.sent ++ b.take n })

/-- `flush` of the raw stream. -/
def flush (s : Sock) : Except IoError Unit × Sock :=
  match s.flushes with
  | [] => (.ok (), s)
  | none :: fs => (.ok (), { s with flushes := fs })
  | some e :: fs => (.error e, { s with flushes := fs })

/-- The loop of `write_until_blocked`, nonblocking_buf_writer.rs 69-75. `Sock.write` uses up one entry of the
script per round (if the script is used up it is a `WouldBlock`, which ends the loop), so the loop is
written as a recursion over the script. `fl` and `sent` are the other parts of the stream. -/
def writeLoop (fl : List (Option IoError)) : List WEv → Bytes → Bytes → Except IoError Nat × Sock
  | evs, sent, [] => (.ok 0, ⟨evs, fl, sent⟩)
  | [], sent, _ => (.ok 0, ⟨[], fl, sent⟩)
  | .err e :: es, sent, _ => (if e = .wouldBlock then .ok 0 else .error e, ⟨es, fl, sent⟩)
  | .accept n :: es, sent, b@(_ :: _) =>
    let (r, s) := writeLoop fl es (sent ++ b.take n) (b.drop n)
    (r.map (· + min n b.length), s)

/-- `write_until_blocked`, nonblocking_buf_writer.rs 66-77: the number of bytes written, or the error. -/
def writeUntilBlocked (s : Sock) (b : Bytes) : Except IoError Nat × Sock := writeLoop s.flushes s.evs s.sent b

end Sock

/-- `NonBlockingBufWriter`, nonblocking_buf_writer.rs 8-12. `cap` is the capacity of the vector, and `grow` how
the vector grows (standard library; left arbitrary up to what is promised). -/
structure Nbw where
  buf : Bytes
  pos : Nat
  cap : Nat
  grow : Nat → Nat → Nat
  growOk : ∀ c n, c ≤ grow c n
  sock : Sock

namespace Nbw

/-- `with_capacity`, nonblocking_buf_writer.rs 16-18. -/
def withCapacity (cap : Nat) (grow : Nat → Nat → Nat) (growOk : ∀ c n, c ≤ grow c n) (sock : Sock) : Nbw :=
  { buf := [], pos := 0, cap, grow, growOk, sock }

/-- `flush_buf`, nonblocking_buf_writer.rs 22-33. -/
def flushBuf (w : Nbw) : Except IoError Unit × Nbw :=
  match w.sock.writeUntilBlocked (w.buf.drop w.pos) with
  | (.error e, sock) => (.error e, { w with sock })
  | (.ok amount, sock) =>
    let pos := w.pos + amount
    if pos ≥ w.buf.length then (.ok (), { w with sock, pos := 0, buf := [] })
    else (.ok (), { w with sock, pos })

/-- `flush_inner`, nonblocking_buf_writer.rs 37-42. -/
def flushInner (w : Nbw) : Except IoError Unit × Nbw :=
  match w.sock.flush with
  | (.error .wouldBlock, sock) => (.ok (), { w with sock })
  | (x, sock) => (x, { w with sock })

/-- `Vec::write`: append, growing if necessary. It always succeeds. -/
def push (w : Nbw) (b : Bytes) : Nbw :=
  let buf := w.buf ++ b
  { w with buf, cap := if buf.length ≤ w.cap then w.cap else w.grow w.cap buf.length }

/-- `Write::write`, nonblocking_buf_writer.rs 46-58. -/
def write (w : Nbw) (data : Bytes) : Except IoError Nat × Nbw :=
  if w.buf.length + data.length > w.cap then
    match w.flushBuf with
    | (.error e, w) => (.error e, w)
    | (.ok (), w) =>
      if w.pos = 0 ∧ data.length > w.cap then
        match w.sock.writeUntilBlocked data with
        | (.error e, sock) => (.error e, { w with sock })
        | (.ok amount, sock) => (.ok data.length, { w with sock }.push (data.drop amount))
      else (.ok data.length, w.push data)
  else (.ok data.length, w.push data)

/-- `Write::flush`, nonblocking_buf_writer.rs 60-63. -/
def flush (w : Nbw) : Except IoError Unit × Nbw :=
  match w.flushBuf with
  | (.error e, w) => (.error e, w)
  | (.ok (), w) => w.flushInner

end Nbw

/-- `std::io::BufWriter` over a raw stream, the writer of the client (client.rs 127). -/
structure BufW where
  buf : Bytes
  cap : Nat
  sock : Sock
  deriving DecidableEq, Repr

namespace BufW

/-- `BufWriter::flush_buf`, standard library: write until the buffer is empty, retry `Interrupted`, and keep
what was not written when another error stops it. The recursion is over the script of the stream. -/
def flushLoop (fl : List (Option IoError)) (cap : Nat) : List WEv → Bytes → Bytes → Except IoError Unit × BufW
  | evs, sent, [] => (.ok (), ⟨[], cap, ⟨evs, fl, sent⟩⟩)
  | [], sent, b => (.error .wouldBlock, ⟨b, cap, ⟨[], fl, sent⟩⟩)
  | .err e :: es, sent, b =>
    if e = .interrupted then flushLoop fl cap es sent b else (.error e, ⟨b, cap, ⟨es, fl, sent⟩⟩)
  | .accept n :: es, sent, b =>
    if n = 0 then (.error .writeZero, ⟨b, cap, ⟨es, fl, sent⟩⟩)
    else flushLoop fl cap es (sent ++ b.take n) (b.drop n)

/-- `BufWriter::flush_buf`. -/
def flushBuf (w : BufW) : Except IoError Unit × BufW := flushLoop w.sock.flushes w.cap w.sock.evs w.sock.sent w.buf

/-- `BufWriter::write`, standard library. -/
def write (w : BufW) (data : Bytes) : Except IoError Nat × BufW :=
  if w.buf.length + data.length < w.cap then (.ok data.length, { w with buf := w.buf ++ data })
  else
    match (if w.buf.length + data.length > w.cap then w.flushBuf else (.ok (), w)) with
    | (.error e, w) => (.error e, w)
    | (.ok (), w) =>
      if data.length ≥ w.cap then
        let (r, sock) := w.sock.write data
        (r, { w with sock })
      else (.ok data.length, { w with buf := w.buf ++ data })

/-- `BufWriter::flush`, standard library. -/
def flush (w : BufW) : Except IoError Unit × BufW :=
  match w.flushBuf with
  | (.error e, w) => (.error e, w)
  | (.ok (), w) => let (r, sock) := w.sock.flush; (r, { w with sock })

end BufW

/-- `std::io::Write`. `rounds` bounds the rounds of the loop of `write_all` beyond the number of bytes to
write. -/
class Write (W : Type) where
  write : W → Bytes → Except IoError Nat × W
  flush : W → Except IoError Unit × W
  rounds : W → Nat

instance : Write Nbw := ⟨Nbw.write, Nbw.flush, fun w => w.sock.evs.length⟩
instance : Write BufW := ⟨BufW.write, BufW.flush, fun w => w.sock.evs.length⟩

/-- `Vec<u8>` as a writer: takes everything. -/
instance : Write Bytes := ⟨fun w b => (.ok b.length, w ++ b), fun w => (.ok (), w), fun _ => 0⟩

namespace Write

variable {W : Type} [Write W]

/-- The loop of `write_all`, standard library: `Interrupted` is retried, `Ok(0)` is an error. The types that
wrap the writers (`Connection`, connection.rs 68-76; `ReadableWriter`, `WriteableReader`, stream.rs 50-84)
define `write` and `flush` only, so it is always this loop that runs. -/
def writeAllLoop : Nat → W → Bytes → IoRes × W
  | _, w, [] => (.ok, w)
  | 0, w, _ => (.diverge, w)
  | f + 1, w, b =>
    match write w b with
    | (.ok 0, w) => (.err .writeZero, w)
    | (.ok n, w) => writeAllLoop f w (b.drop n)
    | (.error .interrupted, w) => writeAllLoop f w b
    | (.error e, w) => (.err e, w)

/-- `write_all`. -/
def writeAll (w : W) (b : Bytes) : IoRes × W := writeAllLoop (rounds w + b.length + 1) w b

/-- `write!`: `write_all` for each piece of the text, stopping at the first error. -/
def fmt : W → List Bytes → IoRes × W
  | w, [] => (.ok, w)
  | w, p :: ps =>
    match writeAll w p with
    | (.ok, w) => fmt w ps
    | x => x

/-- An operation as an `IoRes`, forgetting the value. -/
def res {α : Type} (x : Except IoError α × W) : IoRes × W :=
  match x with
  | (.ok _, w) => (.ok, w)
  | (.error e, w) => (.err e, w)

/-- One operation after the other (the `?` operator). -/
def andThen (x : IoRes × W) (k : W → IoRes × W) : IoRes × W :=
  match x with
  | (.ok, w) => k w
  | x => x

/-- The loop over the header values, server.rs 144-148 and client.rs 146-150. -/
def headerLines : W → List (Header × Bytes) → IoRes × W
  | w, [] => (.ok, w)
  | w, (k, v) :: hs => andThen (fmt w [k.asStr, b!": ", v, CRLF]) fun w => headerLines w hs

end Write

/-- The header values in the order in which a map is iterated. -/
def HeaderMap.flat (m : HeaderMap) : List (Header × Bytes) := m.flatMap fun e => e.2.map fun v => (e.1, v)

open Write in
/-- `write_response`, server.rs 141-153. The header map is given in the order of iteration. -/
def writeResponse {W : Type} [Write W] (w : W) (r : Response) : IoRes × W :=
  andThen (fmt w [b!"HTTP/1.1", [SP], natDec r.status.code, [SP], r.status.reason, CRLF]) fun w =>
  andThen (headerLines w r.headers.flat) fun w =>
  andThen (res (write w CRLF)) fun w =>
  andThen (res (write w r.body)) fun w =>
  res (flush w)

open Write in
/-- `write_request`, client.rs 144-155. The header map is given in the order of iteration. -/
def writeRequest {W : Type} [Write W] (w : W) (r : Request) : IoRes × W :=
  andThen (fmt w [r.method.text, [SP], r.uri, [SP], b!"HTTP/1.1", CRLF]) fun w =>
  andThen (headerLines w r.headers.flat) fun w =>
  andThen (writeAll w CRLF) fun w =>
  andThen (writeAll w r.body) fun w =>
  res (flush w)

end Verif
