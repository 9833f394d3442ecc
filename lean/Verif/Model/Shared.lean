import Verif.Model.BufStream
import Verif.Model.Server
import Verif.Model.Client

/-!
The handler of a connection of the server (`src/server/connection.rs`, `src/server/server.rs`) and `send_request` of the client
(`src/client/client.rs`), over a stream that is read and written, as in the program. Elsewhere (`Verif.Model.Server`, `Verif.Model.Client`) the stream is in
two parts. The parsers and the functions that write are the same ones.
-/

namespace Verif

/-- A `&mut` to a buffered stream, under a stack of `ErrorTake` wrappers as in `Rd`. `offer` is as in `Src`. A loop gets `rounds` rounds. `hung` is not in the program: it
is set when a `write` or `flush` of the stream does not return within them, and what comes then has no meaning. -/
structure Shared (S : Type) where
  lims : List Nat
  offer : Nat → Nat
  rounds : Nat
  hung : Bool
  stream : S

namespace Shared

variable {S : Type} [BufRead S]

/-- `fill_buf` through the wrappers, error_take.rs 42-45, as `Rd.fillBufL`. -/
def fillBufL : List Nat → S → Except IoError Bytes × S
  | [], s => BufRead.fillBuf s
  | l :: ls, s =>
    if l = 0 then (.error .limitReached, s)
    else match fillBufL ls s with
      | (.ok b, s) => (.ok (b.take l), s)
      | (.error e, s) => (.error e, s)

/-- `consume` through the wrappers, error_take.rs 47-49, as `Rd.consumeL`. -/
def consumeL : List Nat → S → Nat → List Nat × S
  | [], s, n => ([], BufRead.consume s n)
  | l :: ls, s, n =>
    let amt := min n l
    let (ls', s') := consumeL ls s amt
    ((l - amt) :: ls', s')

/-- `read` through the wrappers, error_take.rs 35-38, as `Rd.readL`. -/
def readL : List Nat → S → Nat → Except IoError Bytes × List Nat × S
  | [], s, n => let (r, s) := BufRead.read s n; (r, [], s)
  | l :: ls, s, n =>
    if l = 0 then (.error .limitReached, l :: ls, s)
    else match readL ls s (min n l) with
      | (.ok b, ls, s) => (.ok b, (l - b.length) :: ls, s)
      | (.error e, ls, s) => (.error e, l :: ls, s)

/-- The loop of `BufRead::read_until(b'\n')`, standard library, as `Rd.readUntil`. -/
def readUntil (d : UInt8) : Nat → Bytes → List Nat → S → IoRes × Bytes × List Nat × S
  | 0, acc, ls, s => (.diverge, acc, ls, s)
  | f + 1, acc, ls, s =>
    match fillBufL ls s with
    | (.error .interrupted, s) => readUntil d f acc ls s
    | (.error e, s) => (.err e, acc, ls, s)
    | (.ok av, s) =>
      match Rd.memchr d av with
      | some i =>
        let (ls, s) := consumeL ls s (i + 1)
        (.ok, acc ++ av.take (i + 1), ls, s)
      | none =>
        let (ls, s) := consumeL ls s av.length
        if av.length = 0 then (.ok, acc ++ av, ls, s)
        else readUntil d f (acc ++ av) ls s

/-- The loop of `Read::read_to_end`, standard library, as `Rd.readToEndLoop`. -/
def readToEndLoop (offer : Nat → Nat) : Nat → Bytes → List Nat → S → IoRes × Bytes × List Nat × S
  | 0, acc, ls, s => (.diverge, acc, ls, s)
  | f + 1, acc, ls, s =>
    match readL ls s (offer acc.length + 1) with
    | (.error .interrupted, ls, s) => readToEndLoop offer f acc ls s
    | (.error e, ls, s) => (.err e, acc, ls, s)
    | (.ok b, ls, s) =>
      if b.length = 0 then (.ok, acc, ls, s) else readToEndLoop offer f (acc ++ b) ls s

/-- The loop of `BytesDeframer::read`, `src/parse/deframe/bytes.rs` 19-33, as `Rd.readIntoLoop`. -/
def readIntoLoop (size : Nat) : Nat → Bytes → List Nat → S → IoRes × Bytes × List Nat × S
  | 0, acc, ls, s => (.diverge, acc, ls, s)
  | f + 1, acc, ls, s =>
    if acc.length < size then
      match readL ls s (size - acc.length) with
      | (.error e, ls, s) => (.err e, acc, ls, s)
      | (.ok b, ls, s) =>
        if b.length = 0 then (.err .unexpectedEof, acc, ls, s)
        else readIntoLoop size f (acc ++ b) ls s
    else (.ok, acc, ls, s)

end Shared

/-- Reading (standard library, and error_take.rs). -/
instance {S : Type} [BufRead S] : Reader (Shared S) where
  push l r := { r with lims := l :: r.lims }
  pop r := { r with lims := r.lims.tail }
  readUntilLf r :=
    let (o, b, lims, stream) := Shared.readUntil LF r.rounds [] r.lims r.stream
    (o, b, { r with lims, stream })
  readInto size d r :=
    let (o, b, lims, stream) := Shared.readIntoLoop size r.rounds d r.lims r.stream
    (o, b, { r with lims, stream })
  readToEnd d r :=
    let (o, b, lims, stream) := Shared.readToEndLoop r.offer r.rounds d r.lims r.stream
    (o, b, { r with lims, stream })
  fuel r := r.rounds

/-- Writing (connection.rs 68-76 for the server). -/
instance {S : Type} [Wr S] : Write (Shared S) where
  write w b :=
    match Wr.write w.rounds w.stream b with
    | some (x, stream) => (x, { w with stream })
    | none => (.error .other, { w with hung := true })
  flush w :=
    match Wr.flush w.rounds w.stream with
    | some (x, stream) => (x, { w with stream })
    | none => (.error .other, { w with hung := true })
  rounds w := w.rounds

section

variable {S σ : Type} [BufRead S] [Wr S]

/-- `Connection`, connection.rs 34-39: the field `reader` is the stream, for both directions. -/
abbrev SharedConn (S : Type) := Conn (Shared S) Unit

/-- The loop of `respond_to_requests`, server.rs 102-117. -/
def SharedConn.respondLoop (prof : Profile) (rt : Router σ) : Nat → SharedConn S → σ → LoopEnd × SharedConn S × σ
  | 0, c, s => (.diverge, c, s)
  | f + 1, c, s =>
    match c.readRequest prof with
    | (.ready q, c) =>
      match writeResponseFromRouter rt c.reader q s with
      | (some .ok, w, s) =>
        if shouldCloseAfterResponse q then (.drop, { c with reader := w }, s)
        else respondLoop prof rt f { c with reader := w } s
      | (some (.err _), w, s) => (.drop, { c with reader := w }, s)
      | (some .diverge, w, s) => (.diverge, { c with reader := w }, s)
      | (none, w, s) => (.panic, { c with reader := w }, s)
    | (.notReady, c) => (.keep, c, s)
    | (.closed, c) => (.drop, c, s)
    | (.error _, c) =>
      match writeErrorResponse c.reader with
      | (.diverge, w) => (.diverge, { c with reader := w }, s)
      | (_, w) => (.drop, { c with reader := w }, s)
    | (.panic, c) => (.panic, c, s)
    | (.diverge, c) => (.diverge, c, s)

/-- `handle_io_ready_connection`, server.rs 82-99. -/
def SharedConn.handle (prof : Profile) (rt : Router σ) (slot : Slot (Shared S) Unit) (s : σ) : HandleEnd × Slot (Shared S) Unit × σ :=
  match slot with
  | .poisoned c => (.panic, .poisoned c, s)
  | .gone c => (.done, .gone c, s)
  | .live c =>
    match Write.flush c.reader with
    | (.error _, w) => (.done, .gone { c with reader := w }, s)
    | (.ok (), w) =>
      match respondLoop prof rt w.rounds { c with reader := w } s with
      | (.keep, c, s) => (.done, .live c, s)
      | (.drop, c, s) => (.done, .gone c, s)
      | (.panic, c, s) => (.panic, .poisoned c, s)
      | (.diverge, c, s) => (.diverge, .poisoned c, s)

/-- `send_request`, client.rs 132-141. -/
def Shared.sendRequest (prof : Profile) (x : Shared S) (q : Request) : SendEnd × Shared S :=
  match writeRequest x q with
  | (.err e, x) => (.err (.writing e), x)
  | (.diverge, x) => (.diverge, x)
  | (.ok, x) =>
    match ResponseParser.parse prof .new x with
    | (.done r, x) => (.ok r, x)
    | (.io _ e, x) => (.err (.reading e), x)
    | (.perr e, x) => (.err (.responseParsing e), x)
    | (.panic, x) => (.panic, x)
    | (.diverge, x) => (.diverge, x)

end

end Verif
