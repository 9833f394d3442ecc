import Verif.Spec.Progress

/-! Vocabulary for C82: the clients of the integration tests of the server. -/

namespace Verif

/-- Two requests are the same but for the order in which their header maps are iterated. -/
def Request.Same (q q' : Request) : Prop := q'.uri = q.uri ∧ q'.method = q.method ∧ q'.headers.Perm q.headers ∧ q'.body = q.body

/-- A client expects responses of these lengths, one after the other, and reads each with `read_exact`: how many of the calls have returned when it has got `n` bytes. -/
def readExact : List Nat → Nat → Nat
  | [], _ => 0
  | l :: ls, n => if l ≤ n then readExact ls (n - l) + 1 else 0

/-- A client of the tests on connection `k`: it sends a request, reads as many bytes as the expected response has, and goes on with the next request. At every time what has come to the server belongs to the requests whose
predecessors were answered, as far as the client can know from what the server has sent; and each request that the client has sent comes in the end. The pieces end where nothing is lost. No request asks for the connection
to be closed, and the client does not close it. The socket of the server reports no error; it may be full at any time, but does not become free in the middle of an answer with parts of more than 4096 bytes. -/
structure Net.Run.Tester {σ : Type} {prof : Profile} {rt : Router σ} {n : Nat} {s₀ : σ} (r : Net.Run prof rt n s₀) (N k : Nat) (ps : List (Request × Response)) : Prop where
  requests : ∀ p ∈ ps, p.1.Sendable ∧ ¬ CloseAsked p.1
  accepted : ∃ t c, (r.at_ t).conns[k]? = some c
  pieces : ∀ t c, (r.at_ t).conns[k]? = some c → Pieces c.arrived
  waits : ∀ t c, (r.at_ t).conns[k]? = some c →
    bytesOf (c.arrived.flatMap Ev.atoms) <+: (ps.take (readExact (ps.map fun p => (responseBytes p.2).length) c.slot.conn.writer.sock.sent.length + 1)).flatMap fun p => requestBytes p.1
  goesOn : ∀ t c, (r.at_ t).conns[k]? = some c → ∃ t' c', (r.at_ t').conns[k]? = some c' ∧
    ((ps.take (readExact (ps.map fun p => (responseBytes p.2).length) c.slot.conn.writer.sock.sent.length + 1)).flatMap fun p => requestBytes p.1) <+: bytesOf (c'.arrived.flatMap Ev.atoms)
  stays : ∀ t c, (r.at_ t).conns[k]? = some c → c.inTable = true
  socket : ∀ t c, (r.at_ t).conns[k]? = some c → ∀ evs ∈ c.wakes, Tidy N 4096 evs ∧ ∀ e, .err e ∈ evs → e = .wouldBlock
  flushes : ∀ t c, (r.at_ t).conns[k]? = some c → ∀ e, some e ∈ c.first.writer.sock.flushes → e = .wouldBlock

/-- No request has two expected responses. -/
def Consistent (messages : List (Request × Response)) : Prop := ∀ m ∈ messages, ∀ m' ∈ messages, m.1.Same m'.1 → m.2 = m'.2

/-- What the tests expect of the requests of one client. -/
structure Expected (messages : List (Request × Response)) (N : Nat) (ps : List (Request × Response)) : Prop where
  size : 28 ≤ N
  maps : ∀ m ∈ messages, m.1.headers.WF
  consistent : Consistent messages
  parts : ∀ m ∈ messages, m.2.PartsLe N
  known : ∀ p ∈ ps, ∃ m ∈ messages, m.1.Same p.1 ∧ p.2 = m.2

end Verif
