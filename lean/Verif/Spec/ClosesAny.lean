import Verif.Spec.Closes
import Verif.Spec.NetAnyRun

/-! Independent vocabulary for C85 over streams of any kind. -/

namespace Verif

variable {σ : Type} {prof : Profile} {rt : Router σ} {n : Nat} {s₀ : σ}

/-- There is nothing yet, or a call was interrupted. -/
def IoError.Mild (e : IoError) : Prop := e = .wouldBlock ∨ e = .interrupted

/-- The end of the TCP stream, a failure of it other than that there is nothing yet or that a call was interrupted, or bytes that are not valid TLS. -/
def TlsEv.Final : TlsEv → Prop
  | .records _ _ _ _ => False
  | .bad => True
  | .eof => True
  | .err e => e ≠ .wouldBlock ∧ e ≠ .interrupted

/-- The server has closed connection `k`: its handlers have dropped it, or nothing has it any more, as the event loop has dropped its own hold on it and every handler that got it has ended. -/
def ANet.Closed {T : Type} (s : ANet T σ) (k : Nat) : Prop := ∃ c, s.conns[k]? = some c ∧
  ((∀ conn, c.slot ≠ .live conn) ∨ c.inTable = false ∧ ∀ j : Nat, s.jobs[j]? = some k → j ∈ s.pool.finished ∨ j ∈ s.pool.crashed)

end Verif
