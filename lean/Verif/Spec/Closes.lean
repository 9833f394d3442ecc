import Verif.Spec.Progress

/-! Independent vocabulary for C85: connections that should end. -/

namespace Verif

variable {σ : Type} {prof : Profile} {rt : Router σ} {n : Nat} {s₀ : σ}

/-- Nothing but the client ends connection `k`: it does not hang up while the server still serves it, so that the event loop keeps it. The socket reports no error to the server when it writes or flushes; it may be full at any time, but
does not become free in the middle of an answer with parts of more than 4096 bytes. No listener panics. -/
structure Net.Run.Steady (r : Net.Run prof rt n s₀) (N k : Nat) : Prop where
  size : 28 ≤ N
  stays : ∀ t c, (r.at_ t).conns[k]? = some c → c.inTable = true
  socket : ∀ t c, (r.at_ t).conns[k]? = some c → ∀ evs ∈ c.wakes, Tidy N 4096 evs ∧ ∀ e, .err e ∈ evs → e = .wouldBlock
  flushes : ∀ t c, (r.at_ t).conns[k]? = some c → ∀ e, some e ∈ c.first.writer.sock.flushes → e = .wouldBlock
  listeners : ∀ t, ∀ a ∈ asksOn k (r.at_ t).asks, (∀ r, rt.Says a r → r.PartsLe N) ∧ (rt.result a.1 a.2).1 ≠ none

/-- All of the text `w` comes on connection `k`, in any pieces that do not cut a character; after it may come any of `z`. -/
structure Net.Run.Comes (r : Net.Run prof rt n s₀) (k : Nat) (w z : Bytes) : Prop where
  text : ∀ t c, (r.at_ t).conns[k]? = some c → Brings c.arrived (w ++ z)
  all : ∃ t c, (r.at_ t).conns[k]? = some c ∧ w <+: bytesOf (c.arrived.flatMap Ev.atoms)

/-- The end of the stream, or a failure of it other than that there is nothing yet or that a call was interrupted. -/
def Ev.Final : Ev → Prop
  | .data b => b = []
  | .err e => e ≠ .wouldBlock ∧ e ≠ .interrupted

/-- The server has closed connection `k`: its handlers have dropped it, or nothing has it any more, as the event loop has dropped its own hold on it and every handler that got it has ended. -/
def Net.Closed (s : Net σ) (k : Nat) : Prop := ∃ c, s.conns[k]? = some c ∧
  ((∀ conn, c.slot ≠ .live conn) ∨ c.inTable = false ∧ ∀ j a : Nat, s.jobs[j]? = some (k, a) → j ∈ s.pool.finished ∨ j ∈ s.pool.crashed)

end Verif
