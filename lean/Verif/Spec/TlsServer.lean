import Verif.Spec.Tls
import Verif.Spec.Shared

/-!
When a TLS stream has to wait.
-/

namespace Verif

/-- Why a TLS stream has to wait, if its TCP stream was going to read `input` and to do `evs` for what is written: either it has something to send, which the TCP stream did not take
and said so at last; or there is nothing to send and no plain text to hand out, and the TCP stream said at last that there is nothing to read. -/
def TlsStream.Blocked (input : List TlsEv) (evs : List WEv) (t : TlsStream) : Prop :=
  (t.sess.out ≠ [] ∧ (t.sock.evs = [] ∨ .err .wouldBlock :: t.sock.evs <:+ evs)) ∨
  (t.sess.out = [] ∧ t.sess.plain = [] ∧ (t.input = [] ∨ .err .wouldBlock :: t.input <:+ input))

end Verif
