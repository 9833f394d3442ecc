import Verif.Spec.ClientAny
import Verif.Spec.NetAny

/-! Vocabulary for C83: a client and a server that talk over streams of any kind, or over TLS. -/

namespace Verif

variable {T T' : Type}

/-- At the other end of a stream of the client there is a connection of a server: what was read there is a beginning of what the client wrote, in pieces that do not cut a character, and what
the client read is a beginning of what was written there. -/
structure AnyStream.Joins (x : AnyStream (Traced T)) (c : AConn (Traced T')) : Prop where
  there : Brings (Ev.told c.raw.log) x.traced.put
  back : x.traced.got <+: c.raw.put

/-- The sessions of a stream of the client and of a connection of a server have done the handshake with each other: what the one has delivered is a beginning of the plain text that the other has sealed. This is
what TLS guarantees, whatever happens on the way. -/
structure AnyStream.Sealed (x : AnyStream (Traced TlsStream)) (c : AConn (Traced TlsStream)) : Prop where
  there : c.raw.got <+: x.traced.raw.sess.log.flatMap TlsItem.plain
  back : x.traced.got <+: c.raw.raw.sess.log.flatMap TlsItem.plain

end Verif
