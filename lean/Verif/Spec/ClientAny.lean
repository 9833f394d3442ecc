import Verif.Model.ClientAny
import Verif.Spec.Shared
import Verif.Spec.EndToEnd

/-!
Calls of `send` on one connection over streams of any kind, and what corresponds to them where the streams are scripted.
-/

namespace Verif

variable {T F : Type}

/-- A factory whose streams note what is read from them and written to them. -/
instance [AnyFactory T F] : AnyFactory (Traced T) F where
  create f :=
    match (AnyFactory.create f : CreateEnd T × F) with
    | (.ok t, f) => (.ok ⟨t, [], []⟩, f)
    | (.err e, f) => (.err e, f)
    | (.panic, f) => (.panic, f)

/-- All streams a connection has or had, in the order in which they were opened. -/
def AnyConn.all (c : AnyConn T) : List (AnyStream T) := c.dropped ++ c.stream.toList

/-- The raw stream, with what was read from it and written to it. -/
def AnyStream.traced (x : AnyStream (Traced T)) : Traced T := x.shared.stream.val.inner.val.inner

/-- Time passes: the raw stream changes, and loops get `n` rounds now. -/
def AnyConn.turn (env : T → T) (n : Nat) (c : AnyConn (Traced T)) : AnyConn (Traced T) :=
  { c with stream := c.stream.map fun x => { x with shared := { x.shared with rounds := n, stream := x.shared.stream.changed env } } }

/-- Calls of `send` on one connection, one after the other. Before each the raw stream that is there changes in some way. `none`: one of the calls did not return within the rounds it had. -/
def AnyConn.sendAll [RawIO T] [AnyFactory T F] (prof : Profile) (offer : Nat → Nat) : List ((T → T) × Nat × Request) → AnyConn (Traced T) → F →
    Option (List SendEnd × AnyConn (Traced T) × F)
  | [], c, f => some ([], c, f)
  | (env, n, q) :: qs, c, f =>
    match (c.turn env n).send prof offer n f q with
    | (.diverge, _, _) => none
    | (o, c, f) => if c.all.any fun x => x.shared.hung then none else (sendAll prof offer qs c f).map fun y => (o :: y.1, y.2)

/-- A stream over any raw stream and a scripted one in the same state: the same requests were given to them, the same was sent and received, the same bytes are in the buffers, and the script is used up. -/
structure AnyStream.Like (x : AnyStream (Traced T)) (s : ClientStream) : Prop where
  asked : s.asked = x.asked
  sent : s.writer.sock.sent = x.traced.put
  unsent : s.writer.buf = x.shared.stream.val.buf
  unread : s.reader.src.buf = x.shared.stream.val.inner.val.buf
  given : bytesOf s.given = x.traced.got
  over : s.reader.src.evs = []

/-- The same for streams, one by one. -/
inductive AnyStream.AllLike : List (AnyStream (Traced T)) → List ClientStream → Prop
  | nil : AllLike [] []
  | cons {x : AnyStream (Traced T)} {s : ClientStream} {xs : List (AnyStream (Traced T))} {ss : List ClientStream} : x.Like s → AllLike xs ss → AllLike (x :: xs) (s :: ss)

/-- `ClientStream.Honest` for streams of any kind, on which `b` comes: the server at the other end answers each request it is sent with one response, in order. -/
def AnyStream.Honest (ans : Request → Response) (b : Bytes) (x : AnyStream T) : Prop :=
  ∃ ws : List (Request × Bytes), ws.map Prod.fst = x.asked ∧
    (∀ p ∈ ws, ∃ f, f ≠ .untilEof ∧ FittingResponse p.2 f (ans p.1)) ∧
    (b <+: ws.flatMap Prod.snd ∨ ws.flatMap Prod.snd <+: b)

end Verif
