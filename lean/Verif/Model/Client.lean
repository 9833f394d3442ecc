import Verif.Model.Writer
import Verif.Model.Parse

/-!
`src/client/client.rs` and `src/client/stream_factory.rs`: one connection of the client, used by one call of `send` at
a time. The choice of the connection by `Client::send` is in `Verif.Model.ClientPool`.

Not modelled here: TLS (`TlsStreamFactory`, `ClientTlsStream`; the stream is in `Verif.Model.Tls`, and requests over it are in `Verif.Model.Shared`, see C71); the time that passes (a read that times out is a
`WouldBlock` in the script of the stream).
-/

namespace Verif

/-- `RequestError`, client.rs 22-32. -/
inductive RequestError
  | responseParsing (e : ParsingError)
  | connecting (e : IoError)
  | reading (e : IoError)
  | writing (e : IoError)
  deriving DecidableEq, Repr

/-- A stream to a server, as a factory makes it: what reading from it and writing to it will do. -/
structure RawStream where
  input : List Ev
  /-- What writing does (`Sock.evs`). -/
  output : List WEv
  /-- What flushing does (`Sock.flushes`). -/
  flushes : List (Option IoError) := []
  /-- How `Vec` grows while the stream is read to its end (`Src.offer`), left arbitrary. -/
  offer : Nat → Nat := id

/-- `StdBufStream<S>`, util/stream.rs 4, the stream of a `Connection`, client.rs 97: a `BufReader` and a `BufWriter` over
one stream. Reading and writing do not affect each other's buffers (util/stream.rs 45-116), so they are kept
apart. The last two fields are not in the program; they record, for statements only, the requests that were given to
`write_request` on this stream and all that the stream delivers from its beginning. -/
structure ClientStream where
  reader : Rd
  writer : BufW
  asked : List Request
  given : List Atom

/-- `with_buf_reader_and_writer(new_stream, BufReader::new, BufWriter::new)`, client.rs 127: buffers of 8 KiB, the default of
the standard library. -/
def ClientStream.open (s : RawStream) : ClientStream where
  reader := ⟨[], { cap := 8192, capPos := by decide, offer := s.offer, buf := [], evs := s.input }⟩
  writer := ⟨[], 8192, ⟨s.output, s.flushes, []⟩⟩
  asked := []
  given := s.input.flatMap Ev.atoms

/-- What `StreamFactory::create` does; `S` is the kind of stream, scripted ones if nothing else is said. -/
inductive CreateEnd (S : Type := RawStream)
  | ok (s : S)
  | err (e : IoError)
  | panic

/-- `StreamFactory`, stream_factory.rs 14-16. The state is that of the world: `create` takes `&self`. -/
class StreamFactory (F : Type) where
  create : F → CreateEnd × F

/-- Any factory, as a script of what it does; once it is used up, creating a stream fails. -/
instance : StreamFactory (List CreateEnd) where
  create
    | [] => (.err .other, [])
    | x :: xs => (x, xs)

/-- `TcpStreamFactory`, stream_factory.rs 19-22: whether the read timeout is zero, and what successive calls of
`TcpStream::connect` do (once used up, they fail). -/
structure TcpStreamFactory (S : Type := RawStream) where
  timeoutZero : Bool
  connects : List (Except IoError S)

/-- `TcpStream::connect`, standard library. -/
def TcpStreamFactory.connect {S : Type} (f : TcpStreamFactory S) : Except IoError S × TcpStreamFactory S :=
  match f.connects with
  | [] => (.error .other, f)
  | x :: xs => (x, { f with connects := xs })

/-- `TcpStreamFactory::create`, stream_factory.rs 32-41: connecting is tried again once if it fails;
`set_read_timeout` fails if the timeout is zero (standard library), and `unwrap` panics then (other failures of
`set_read_timeout` are not modelled). -/
def TcpStreamFactory.create {S : Type} (f : TcpStreamFactory S) : CreateEnd S × TcpStreamFactory S :=
  match (match f.connect with
    | (.error _, f) => f.connect
    | x => x) with
  | (.error e, f) => (.err e, f)
  | (.ok s, f) => (if f.timeoutZero then .panic else .ok s, f)

instance : StreamFactory TcpStreamFactory := ⟨TcpStreamFactory.create⟩

/-- How a call of `send` ends. -/
inductive SendEnd
  | ok (r : Response)
  | err (e : RequestError)
  | panic
  | diverge
  deriving DecidableEq, Repr

/-- `send_request`, client.rs 132-141. -/
def sendRequest (prof : Profile) (s : ClientStream) (q : Request) : SendEnd × ClientStream :=
  let s := { s with asked := s.asked ++ [q] }
  match writeRequest s.writer q with
  | (.err e, w) => (.err (.writing e), { s with writer := w })
  | (.diverge, w) => (.diverge, { s with writer := w })
  | (.ok, w) =>
    match ResponseParser.parse prof .new s.reader with
    | (.done r, rd) => (.ok r, { s with reader := rd, writer := w })
    | (.io _ e, rd) => (.err (.reading e), { s with reader := rd, writer := w })
    | (.perr e, rd) => (.err (.responseParsing e), { s with reader := rd, writer := w })
    | (.panic, rd) => (.panic, { s with reader := rd, writer := w })
    | (.diverge, rd) => (.diverge, { s with reader := rd, writer := w })

/-- Dropping a stream: `BufWriter` tries once to write what it still holds (standard library). -/
def ClientStream.drop (s : ClientStream) : ClientStream := { s with writer := s.writer.flushBuf.2 }

/-- `Connection`, client.rs 96-98. `dropped` is not in the program; it records, for statements only, the streams the
connection had before. -/
structure ClientConn where
  stream : Option ClientStream
  dropped : List ClientStream

/-- `Connection::new`, client.rs 102-104. -/
def ClientConn.new : ClientConn := ⟨none, []⟩

/-- How `Connection::connect` ends. -/
inductive ConnectEnd
  | ok
  | err (e : IoError)
  | panic

section

variable {F : Type} [StreamFactory F]

/-- `Connection::connect`, client.rs 125-129: the old stream is dropped when the new one takes its place. -/
def ClientConn.connect (c : ClientConn) (f : F) : ConnectEnd × ClientConn × F :=
  match StreamFactory.create f with
  | (.err e, f) => (.err e, c, f)
  | (.panic, f) => (.panic, c, f)
  | (.ok s, f) => (.ok, ⟨some (.open s), c.dropped ++ (c.stream.map ClientStream.drop).toList⟩, f)

/-- The retry in `Connection::send`, client.rs 117-118. -/
def ClientConn.retry (prof : Profile) (c : ClientConn) (f : F) (q : Request) : SendEnd × ClientConn × F :=
  match c.connect f with
  | (.err e, c, f) => (.err (.connecting e), c, f)
  | (.panic, c, f) => (.panic, c, f)
  | (.ok, c, f) =>
    match c.stream with
    | none => (.panic, c, f)
    | some s =>
      let (x, s) := sendRequest prof s q
      (x, { c with stream := some s }, f)

/-- `Connection::send`, client.rs 110-122, with the stream there, client.rs 115-121. -/
def ClientConn.sendOpen (prof : Profile) (c : ClientConn) (f : F) (q : Request) : SendEnd × ClientConn × F :=
  match c.stream with
  | none => (.panic, c, f)
  | some s =>
    match sendRequest prof s q with
    | (.err _, s) => ClientConn.retry prof { c with stream := some s } f q
    | (x, s) => (x, { c with stream := some s }, f)

/-- `Connection::send`, client.rs 110-122. -/
def ClientConn.send (prof : Profile) (c : ClientConn) (f : F) (q : Request) : SendEnd × ClientConn × F :=
  match c.stream with
  | some _ => c.sendOpen prof f q
  | none =>
    match c.connect f with
    | (.err e, c, f) => (.err (.connecting e), c, f)
    | (.panic, c, f) => (.panic, c, f)
    | (.ok, c, f) => c.sendOpen prof f q

end

end Verif
