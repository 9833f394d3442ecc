import Verif.Spec.Progress

/-! Independent vocabulary for C68: a client of the library that calls `send` again and again, on one connection to a server of the library. -/

namespace Verif

/-- Whether a call of `send` returned a response. -/
def SendEnd.isOk : SendEnd → Bool
  | .ok _ => true
  | _ => false

/-- The client calls `send` for these requests one after the other on one stream, on which the bytes `b` have come so far: how many of the calls have returned a response. -/
def hears (prof : Profile) (qs : List Request) (b : Bytes) : Nat :=
  ((sendAll prof qs .new [CreateEnd.ok (S := RawStream) { input := if b = [] then [] else [.data b], output := List.replicate (qs.flatMap requestBytes).length (.accept 1) }]).1.takeWhile
    SendEnd.isOk).length

/-- A client calls `send` for the requests `qs` on connection `k`, one after the other: at every time what has come to the server belongs to the requests whose predecessors
were answered, as far as the client can know from what the server has sent; and each request that the client has sent comes in the end. The pieces end where
nothing is lost. No request asks for the connection to be closed, and the client does not close it. The socket of the server and the listeners are as in `Net.Run.Sends`, and every
request is answered with a response that can be sent. -/
structure Net.Run.InTurns {σ : Type} {prof : Profile} {rt : Router σ} {n : Nat} {s₀ : σ} (r : Net.Run prof rt n s₀) (profC : Profile) (N k : Nat) (qs : List Request) : Prop where
  size : 28 ≤ N
  requests : ∀ q ∈ qs, q.Sendable ∧ ¬ CloseAsked q
  accepted : ∃ t c, (r.at_ t).conns[k]? = some c
  pieces : ∀ t c, (r.at_ t).conns[k]? = some c → Pieces c.arrived
  waits : ∀ t c, (r.at_ t).conns[k]? = some c →
    bytesOf (c.arrived.flatMap Ev.atoms) <+: (qs.take (hears profC qs c.slot.conn.writer.sock.sent + 1)).flatMap requestBytes
  goesOn : ∀ t c, (r.at_ t).conns[k]? = some c → ∃ t' c', (r.at_ t').conns[k]? = some c' ∧
    (qs.take (hears profC qs c.slot.conn.writer.sock.sent + 1)).flatMap requestBytes <+: bytesOf (c'.arrived.flatMap Ev.atoms)
  stays : ∀ t c, (r.at_ t).conns[k]? = some c → c.inTable = true
  socket : ∀ t c, (r.at_ t).conns[k]? = some c → ∀ evs ∈ c.wakes, Tidy N 4096 evs ∧ ∀ e, .err e ∈ evs → e = .wouldBlock
  flushes : ∀ t c, (r.at_ t).conns[k]? = some c → ∀ e, some e ∈ c.first.writer.sock.flushes → e = .wouldBlock
  listeners : ∀ t, ∀ a ∈ asksOn k (r.at_ t).asks, ∃ r, rt.Says a r ∧ r.PartsLe N ∧ r.Sendable

/-- The router answers these requests, each in the state of the listeners that goes with it, with these responses. -/
inductive SaysAll {σ : Type} (rt : Router σ) : List (Request × σ) → List Response → Prop
  | nil : SaysAll rt [] []
  | cons {a : Request × σ} {r : Response} {as : List (Request × σ)} {rs : List Response} : rt.Says a r → SaysAll rt as rs → SaysAll rt (a :: as) (r :: rs)

end Verif
