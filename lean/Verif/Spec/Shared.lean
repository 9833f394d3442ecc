import Verif.Model.Shared
import Verif.Spec.BufStream
import Verif.Spec.Serving

/-!
Serving and sending over a raw stream of any kind, and what corresponds to it where the stream is in two parts.
-/

namespace Verif

variable {T σ : Type}

/-- What every raw stream promises (standard library): `read` delivers no more than there is room for. -/
def RawIO.ReadsWithin (T : Type) [RawIO T] : Prop :=
  ∀ (t t' : T) (n : Nat) (b : Bytes), RawIO.read t n = (.ok b, t') → b.length ≤ n

/-- The raw stream changes while nobody uses it. -/
def ServerStack.changed (env : T → T) (s : ServerStack (Traced T)) : ServerStack (Traced T) :=
  ⟨{ s.val with inner := ⟨{ s.val.inner.val with inner := { s.val.inner.val.inner with raw := env s.val.inner.val.inner.raw } }⟩ }⟩

/-- The same for a stream of the client. -/
def ClientStack.changed (env : T → T) (s : ClientStack (Traced T)) : ClientStack (Traced T) :=
  ⟨{ s.val with inner := ⟨{ s.val.inner.val with inner := { s.val.inner.val.inner with raw := env s.val.inner.val.inner.raw } }⟩ }⟩

/-- Time passes: the raw stream changes, and loops get `n` rounds now. -/
def Slot.turn (env : T → T) (n : Nat) : Slot (Shared (ServerStack (Traced T))) Unit → Slot (Shared (ServerStack (Traced T))) Unit
  | .live c => .live { c with reader := { c.reader with rounds := n, stream := c.reader.stream.changed env } }
  | x => x

/-- Successive invocations of the handler of a connection. Before each the raw stream changes in some way. `none`: one of them did not return within the rounds it had. -/
def SharedConn.handleAll [RawIO T] (prof : Profile) (rt : Router σ) : List ((T → T) × Nat) → Slot (Shared (ServerStack (Traced T))) Unit → σ →
    Option (Slot (Shared (ServerStack (Traced T))) Unit × σ)
  | [], l, s => some (l, s)
  | (env, n) :: es, l, s =>
    match SharedConn.handle prof rt (l.turn env n) s with
    | (.diverge, _, _) => none
    | (_, l, s) => if l.conn.reader.hung then none else handleAll prof rt es l s

/-- A new connection of the server over the raw stream `t` (server.rs 59 and 69-79). -/
def SharedConn.new (grow : Nat → Nat → Nat) (offer : Nat → Nat) (t : T) : SharedConn (ServerStack (Traced T)) :=
  Conn.new ⟨[], offer, 0, false, ServerStack.new grow ⟨t, [], []⟩⟩ ()

/-- A new connection over a scripted stream. -/
def Conn.scripted (grow : Nat → Nat → Nat) (hg : ∀ c n, c ≤ grow c n) (offer : Nat → Nat) (es : List Ev) (fl : List (Option IoError)) : Conn Rd Nbw :=
  Conn.new ⟨[], ⟨4096, by decide, offer, [], es⟩⟩ (.withCapacity 4096 grow hg ⟨[], fl, []⟩)

/-- The raw stream of a connection, with what was read from it and written to it. -/
def Slot.traced (l : Slot (Shared (ServerStack (Traced T))) Unit) : Traced T := l.conn.reader.stream.val.inner.val.inner

/-- A connection over any raw stream and one over a scripted stream in the same state: the same parser, the same bytes in the buffers, and the same was sent. -/
structure SharedConn.Like (c : SharedConn (ServerStack (Traced T))) (d : Conn Rd Nbw) : Prop where
  parser : c.parser = d.parser
  unread : c.reader.stream.val.inner.val.buf = d.reader.src.buf
  unsent : c.reader.stream.val.buf = d.writer.buf
  pos : c.reader.stream.val.pos = d.writer.pos
  room : c.reader.stream.val.cap = d.writer.cap
  sent : c.reader.stream.val.inner.val.inner.put = d.writer.sock.sent

/-- The same for a connection that is there, was closed, or was lost by a panic. -/
inductive Slot.Like : Slot (Shared (ServerStack (Traced T))) Unit → Slot Rd Nbw → Prop
  | live {c : SharedConn (ServerStack (Traced T))} {d : Conn Rd Nbw} : SharedConn.Like c d → Slot.Like (.live c) (.live d)
  | gone {c : SharedConn (ServerStack (Traced T))} {d : Conn Rd Nbw} : SharedConn.Like c d → Slot.Like (.gone c) (.gone d)
  | poisoned {c : SharedConn (ServerStack (Traced T))} {d : Conn Rd Nbw} : SharedConn.Like c d → Slot.Like (.poisoned c) (.poisoned d)

/-- Requests sent one after the other on one stream of the client, each with its answer awaited. Before each the raw stream changes in some way. `none`: one of the calls
did not return within the rounds it had. -/
def Shared.sendAll [RawIO T] (prof : Profile) : List ((T → T) × Nat × Request) → Shared (ClientStack (Traced T)) → Option (List SendEnd × Shared (ClientStack (Traced T)))
  | [], x => some ([], x)
  | (env, n, q) :: qs, x =>
    match Shared.sendRequest prof { x with rounds := n, stream := x.stream.changed env } q with
    | (.diverge, _) => none
    | (o, x) => if x.hung then none else (sendAll prof qs x).map fun y => (o :: y.1, y.2)

/-- A new stream of the client over the raw stream `t` (client.rs 127). -/
def Shared.opened (offer : Nat → Nat) (t : T) : Shared (ClientStack (Traced T)) := ⟨[], offer, 0, false, ClientStack.new ⟨t, [], []⟩⟩

/-- Requests sent one after the other on one scripted stream. -/
def ClientStream.sendAll (prof : Profile) : List Request → ClientStream → List SendEnd × ClientStream
  | [], s => ([], s)
  | q :: qs, s => ((sendRequest prof s q).1 :: (sendAll prof qs (sendRequest prof s q).2).1, (sendAll prof qs (sendRequest prof s q).2).2)

/-- The response that came of a request, if one did. -/
def SendEnd.response : SendEnd → Option Response
  | .ok r => some r
  | _ => none

/-- Responses read one after the other. -/
inductive Replies (prof : Profile) : Rd → List Response → Rd → Prop
  | nil {r : Rd} : Replies prof r [] r
  | cons {r r₁ r' : Rd} {a : Response} {as : List Response} : ResponseParser.parse prof .new r = (.done a, r₁) → Replies prof r₁ as r' → Replies prof r (a :: as) r'

end Verif
