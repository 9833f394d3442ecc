import Verif.Model.Shared
import Verif.Model.ClientNew

/-!
One connection of the client (`src/client/client.rs` 96-129) over streams of any kind, as they are in the program: `Connection<S>` for any `S: Stream`. In `Verif.Model.Client` the streams are scripted and in two parts.
-/

namespace Verif

/-- `StreamFactory<T>`, stream_factory.rs 14-16, for streams of any kind. The state is that of the world. -/
class AnyFactory (T F : Type) where
  create : F → CreateEnd T × F

/-- Any factory, as a script of what it does; once it is used up, creating a stream fails. -/
instance {T : Type} : AnyFactory T (List (CreateEnd T)) where
  create
    | [] => (.err .other, [])
    | x :: xs => (x, xs)

instance : AnyFactory TlsStream TlsStreamFactory := ⟨TlsStreamFactory.create⟩

/-- The stream of a `Connection`, client.rs 97. The field `asked` is not in the program; it records, for statements only, the requests that were given to `write_request` on this stream. -/
structure AnyStream (T : Type) where
  shared : Shared (ClientStack T)
  asked : List Request

/-- `Connection`, client.rs 96-98; `dropped` is as in `ClientConn`. -/
structure AnyConn (T : Type) where
  stream : Option (AnyStream T)
  dropped : List (AnyStream T)

/-- `Connection::new`, client.rs 102-104. -/
def AnyConn.new {T : Type} : AnyConn T := ⟨none, []⟩

section

variable {T F : Type} [RawIO T] [AnyFactory T F]

/-- Dropping a stream: `BufWriter` tries once to write what it still holds (standard library), and then the streams within are dropped. -/
def AnyStream.drop (x : AnyStream T) : AnyStream T :=
  match x.shared.stream.val.flushBuf x.shared.rounds x.shared.rounds with
  | some (_, w) => { x with shared := { x.shared with stream := ⟨{ w with inner := ⟨{ w.inner.val with inner := RawIO.dropped w.inner.val.inner }⟩ }⟩ } }
  | none => { x with shared := { x.shared with hung := true } }

/-- `send_request`, client.rs 132-141. -/
def AnyStream.send (prof : Profile) (x : AnyStream T) (q : Request) : SendEnd × AnyStream T :=
  ((Shared.sendRequest prof x.shared q).1, ⟨(Shared.sendRequest prof x.shared q).2, x.asked ++ [q]⟩)

/-- `Connection::connect`, client.rs 125-129; the new stream gets `n` rounds for its loops, and `offer` is as in `Src`. -/
def AnyConn.connect (offer : Nat → Nat) (n : Nat) (c : AnyConn T) (f : F) : ConnectEnd × AnyConn T × F :=
  match (AnyFactory.create f : CreateEnd T × F) with
  | (.err e, f) => (.err e, c, f)
  | (.panic, f) => (.panic, c, f)
  | (.ok t, f) => (.ok, ⟨some ⟨⟨[], offer, n, false, ClientStack.new t⟩, []⟩, c.dropped ++ (c.stream.map AnyStream.drop).toList⟩, f)

/-- The retry in `Connection::send`, client.rs 117-118. -/
def AnyConn.retry (prof : Profile) (offer : Nat → Nat) (n : Nat) (c : AnyConn T) (f : F) (q : Request) : SendEnd × AnyConn T × F :=
  match c.connect offer n f with
  | (.err e, c, f) => (.err (.connecting e), c, f)
  | (.panic, c, f) => (.panic, c, f)
  | (.ok, c, f) =>
    match c.stream with
    | none => (.panic, c, f)
    | some x => ((x.send prof q).1, { c with stream := some (x.send prof q).2 }, f)

/-- `Connection::send`, client.rs 110-122, with the stream there, client.rs 115-121. -/
def AnyConn.sendOpen (prof : Profile) (offer : Nat → Nat) (n : Nat) (c : AnyConn T) (f : F) (q : Request) : SendEnd × AnyConn T × F :=
  match c.stream with
  | none => (.panic, c, f)
  | some x =>
    match x.send prof q with
    | (.err _, x) => AnyConn.retry prof offer n { c with stream := some x } f q
    | (o, x) => (o, { c with stream := some x }, f)

/-- `Connection::send`, client.rs 110-122. -/
def AnyConn.send (prof : Profile) (offer : Nat → Nat) (n : Nat) (c : AnyConn T) (f : F) (q : Request) : SendEnd × AnyConn T × F :=
  match c.stream with
  | some _ => c.sendOpen prof offer n f q
  | none =>
    match c.connect offer n f with
    | (.err e, c, f) => (.err (.connecting e), c, f)
    | (.panic, c, f) => (.panic, c, f)
    | (.ok, c, f) => c.sendOpen prof offer n f q

end

end Verif
