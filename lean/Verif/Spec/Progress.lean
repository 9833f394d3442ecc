import Verif.Spec.Net
import Verif.Spec.EndToEnd
import Verif.Spec.Serving

/-! Independent vocabulary for C62: clients that send requests and wait. -/

namespace Verif

/-- A client sends the texts of the requests `ms` on connection `k`, in any pieces that do not cut a character, asks with none of them for the connection to be
closed, and does not close it. The socket reports no error to the server, neither when reading or writing nor when it is flushed; it may be full at any time, but does not become free in the middle of an answer with parts
of more than 4096 bytes. No listener panics. -/
structure Net.Run.Sends {σ : Type} {prof : Profile} {rt : Router σ} {n : Nat} {s₀ : σ} (r : Net.Run prof rt n s₀) (N k : Nat) (ms : List (Bytes × Request)) : Prop where
  size : 28 ≤ N
  requests : ∀ m ∈ ms, FittingRequest m.1 m.2 ∧ ¬ CloseAsked m.2
  text : ∀ t c, (r.at_ t).conns[k]? = some c → Brings c.arrived (ms.flatMap Prod.fst)
  all : ∃ t c, (r.at_ t).conns[k]? = some c ∧ bytesOf (c.arrived.flatMap Ev.atoms) = ms.flatMap Prod.fst
  stays : ∀ t c, (r.at_ t).conns[k]? = some c → c.inTable = true
  socket : ∀ t c, (r.at_ t).conns[k]? = some c → ∀ evs ∈ c.wakes, Tidy N 4096 evs ∧ ∀ e, .err e ∈ evs → e = .wouldBlock
  flushes : ∀ t c, (r.at_ t).conns[k]? = some c → ∀ e, some e ∈ c.first.writer.sock.flushes → e = .wouldBlock
  listeners : ∀ t, ∀ a ∈ asksOn k (r.at_ t).asks, (∀ r, rt.Says a r → r.PartsLe N) ∧ (rt.result a.1 a.2).1 ≠ none

/-- Whenever no handler uses connection `k` and the server still has something to send on it, a handler is run at some time later during which the socket takes all of it. -/
def Net.Run.Takes {σ : Type} {prof : Profile} {rt : Router σ} {n : Nat} {s₀ : σ} (r : Net.Run prof rt n s₀) (k : Nat) : Prop :=
  ∀ t c, (r.at_ t).conns[k]? = some c → c.lock = none → c.slot.conn.writer.pending ≠ [] →
    ∃ t' ≥ t, ∃ w evs c', r.act t' = some (.lock w evs) ∧ (r.at_ t').handled w = some k ∧ (r.at_ t').conns[k]? = some c' ∧
      c'.slot.conn.writer.pending.length ≤ room evs

end Verif
