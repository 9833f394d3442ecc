import Verif.Model.Parse
import Verif.Model.Router
import Verif.Model.Writer

/-!
`src/server/connection.rs`, and the part of `src/server/server.rs` that handles one connection.

The stream of a connection is in two parts, a reader and a writer, as `with_buf_reader_and_writer`
(server.rs 69-79, stream.rs 18-27) makes it; reading does not touch the writer's buffer and writing does
not touch the reader's. For a stream whose directions affect each other, such as a TLS stream, where reading may write to
the socket and writing may read, see `Verif.Model.Shared`; C71 says that what is proved here holds there too.
-/

namespace Verif

/-- `ReadRequestError`, connection.rs 26-31. -/
inductive ReadRequestError
  | parseErr (e : ParsingError)
  | ioErr (e : IoError)
  deriving DecidableEq, Repr

/-- `ReadRequestResult`, connection.rs 13-22. `panic` and `diverge` are for calls that do not return. -/
inductive ReadRequestResult
  | notReady
  | ready (q : Request)
  | error (e : ReadRequestError)
  | closed
  | panic
  | diverge
  deriving DecidableEq, Repr

/-- `Connection`, connection.rs 34-39, without the address, which nothing depends on. -/
structure Conn (R W : Type) where
  reader : R
  writer : W
  parser : Option RequestParser

/-- `is_closed`, connection.rs 79-84. -/
def isClosed (p : RequestParser) (e : IoError) : Bool :=
  (e = .unexpectedEof && !p.hasData) || e = .connectionAborted

/-- A `lock: Mutex<Option<Connection>>` as `listen_abstract` makes it, server.rs 59. Where the option is `None`
(`gone`) and where the mutex is poisoned, the connection is no longer there; what is recorded with these is
how it was when it was dropped, for statements about what had been sent. -/
inductive Slot (R W : Type)
  | live (c : Conn R W)
  | gone (c : Conn R W)
  | poisoned (c : Conn R W)

/-- The bytes of the 400 response, server.rs 24. -/
def badRequestResponse : Bytes := b!"HTTP/1.1 400 Bad Request\r\n\r\n"

/-- The bytes of the 404 response, server.rs 27. -/
def notFoundResponse : Bytes := b!"HTTP/1.1 404 Not Found\r\n\r\n"

/-- How `respond_to_requests` ends: with `false` (keep the connection), with `true` (drop it), or not. -/
inductive LoopEnd
  | keep
  | drop
  | panic
  | diverge
  deriving DecidableEq, Repr

section

variable {R W σ : Type} [Reader R] [Write W]

/-- `Connection::new`, connection.rs 43-49. -/
def Conn.new (reader : R) (writer : W) : Conn R W := ⟨reader, writer, some .new⟩

/-- `Connection::read_request`, connection.rs 52-66. -/
def Conn.readRequest (prof : Profile) (c : Conn R W) : ReadRequestResult × Conn R W :=
  match RequestParser.parse prof (c.parser.getD .new) c.reader with
  | (.done q, r) => (.ready q, { c with reader := r, parser := none })
  | (.io p e, r) =>
    if e = .wouldBlock then (.notReady, { c with reader := r, parser := some p })
    else if isClosed p e then (.closed, { c with reader := r, parser := none })
    else (.error (.ioErr e), { c with reader := r, parser := none })
  | (.perr e, r) => (.error (.parseErr e), { c with reader := r, parser := none })
  | (.panic, r) => (.panic, { c with reader := r, parser := none })
  | (.diverge, r) => (.diverge, { c with reader := r, parser := none })

open Write in
/-- `write_response_from_router`, server.rs 120-126; `none` is a panic of a listener. -/
def writeResponseFromRouter (rt : Router σ) (w : W) (q : Request) (s : σ) : Option IoRes × W × σ :=
  match rt.result q s with
  | (none, s) => (none, w, s)
  | (some (.sendResponse r), s) => let (x, w) := writeResponse w r; (some x, w, s)
  | (some (.sendResponseArc r), s) => let (x, w) := writeResponse w r; (some x, w, s)
  | (some .next, s) =>
    let (x, w) := andThen (writeAll w notFoundResponse) fun w => res (flush w)
    (some x, w, s)

open Write in
/-- `write_error_response`, server.rs 129-133, without the message printed. -/
def writeErrorResponse (w : W) : IoRes × W :=
  andThen (writeAll w badRequestResponse) fun w => res (flush w)

/-- `should_close_after_response`, server.rs 136-138. -/
def shouldCloseAfterResponse (q : Request) : Bool := q.headers.containsHeaderValue Header.connection b!"close"

/-- The loop of `respond_to_requests`, server.rs 102-117. -/
def respondLoop (prof : Profile) (rt : Router σ) : Nat → Conn R W → σ → LoopEnd × Conn R W × σ
  | 0, c, s => (.diverge, c, s)
  | f + 1, c, s =>
    match c.readRequest prof with
    | (.ready q, c) =>
      match writeResponseFromRouter rt c.writer q s with
      | (some .ok, w, s) =>
        if shouldCloseAfterResponse q then (.drop, { c with writer := w }, s)
        else respondLoop prof rt f { c with writer := w } s
      | (some (.err _), w, s) => (.drop, { c with writer := w }, s)
      | (some .diverge, w, s) => (.diverge, { c with writer := w }, s)
      | (none, w, s) => (.panic, { c with writer := w }, s)
    | (.notReady, c) => (.keep, c, s)
    | (.closed, c) => (.drop, c, s)
    | (.error _, c) =>
      match writeErrorResponse c.writer with
      | (.diverge, w) => (.diverge, { c with writer := w }, s)
      | (_, w) => (.drop, { c with writer := w }, s)
    | (.panic, c) => (.panic, c, s)
    | (.diverge, c) => (.diverge, c, s)

/-- `respond_to_requests`, server.rs 102-117. Every request takes at least a byte of input, so there are no more
rounds than there is input, and one. -/
def respondToRequests (prof : Profile) (rt : Router σ) (c : Conn R W) (s : σ) : LoopEnd × Conn R W × σ :=
  respondLoop prof rt (Reader.fuel c.reader) c s

/-- How a run of `handle_io_ready_connection` ends. -/
inductive HandleEnd
  | done
  | panic
  | diverge
  deriving DecidableEq, Repr

/-- `handle_io_ready_connection`, server.rs 82-99, run without interruption (the lock is held throughout; for
other threads see the model of the workers). A panic while the lock is held poisons the mutex and drops the
connection. -/
def handle (prof : Profile) (rt : Router σ) (slot : Slot R W) (s : σ) : HandleEnd × Slot R W × σ :=
  match slot with
  | .poisoned c => (.panic, .poisoned c, s)
  | .gone c => (.done, .gone c, s)
  | .live c =>
    match Write.flush c.writer with
    | (.error _, w) => (.done, .gone { c with writer := w }, s)
    | (.ok (), w) =>
      match respondToRequests prof rt { c with writer := w } s with
      | (.keep, c, s) => (.done, .live c, s)
      | (.drop, c, s) => (.done, .gone c, s)
      | (.panic, c, s) => (.panic, .poisoned c, s)
      | (.diverge, c, s) => (.diverge, .poisoned c, s)

/-- Time passes: what the socket of the connection will do from now on with what is written is `evs`. -/
def Slot.wake (evs : List WEv) : Slot R Nbw → Slot R Nbw
  | .live c => .live { c with writer := { c.writer with sock := { c.writer.sock with evs } } }
  | x => x

end

end Verif
