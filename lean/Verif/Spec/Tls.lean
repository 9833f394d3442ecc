import Verif.Model.Tls

/-!
What one expects of a TLS stream.
-/

namespace Verif

/-- The plain text in what was sent. -/
def TlsItem.plain : TlsItem → Bytes
  | .data b => b
  | _ => []

/-- The bytes of a number of things that are sent, of which the first has the number `i`. -/
def Cipher.wire (c : Cipher) : Nat → List TlsItem → Bytes
  | _, [] => []
  | i, x :: xs => c.sealed i x ++ c.wire (i + 1) xs

/-- What the reads of the TCP stream amount to. -/
structure TlsHeard where
  handshaking : Bool
  came : Bytes
  closed : Bool
  failed : Bool

/-- After one more read: plain text counts after the end of the handshake, and nothing counts after something that is not valid. -/
def TlsHeard.step (h : TlsHeard) : TlsEv → TlsHeard
  | .records ends plain close _ =>
    if h.failed then h
    else { h with handshaking := h.handshaking && !ends, came := if h.handshaking && !ends then h.came else h.came ++ plain, closed := h.closed || close }
  | .bad => { h with failed := true }
  | .eof => h
  | .err _ => h

/-- A use of a TLS stream. -/
inductive TlsOp
  | read (n : Nat)
  | write (b : Bytes)
  | flush

/-- Some uses of a TLS stream: the plain text that reads delivered, the plain text that writes took, and what became of the stream. -/
def TlsStream.uses : List TlsOp → TlsStream → Bytes × Bytes × TlsStream
  | [], t => ([], [], t)
  | .read n :: os, t =>
    match t.read n with
    | (.ok b, t) => (b ++ (uses os t).1, (uses os t).2)
    | (.error _, t) => uses os t
  | .write b :: os, t =>
    match t.write b with
    | (.ok n, t) => ((uses os t).1, b.take n ++ (uses os t).2.1, (uses os t).2.2)
    | (.error _, t) => uses os t
  | .flush :: os, t => uses os t.flush.2

/-- The script of plain text that reading from a TLS stream amounts to, when the handshake is over; `closed`: a close_notify has come. -/
def plainScript : Bool → List TlsEv → List Ev
  | _, [] => []
  | closed, .records _ b close _ :: es => (if b = [] then [] else [.data b]) ++ plainScript (closed || close) es
  | closed, .eof :: es => (if closed then .err .connectionAborted else .data []) :: plainScript closed es
  | closed, .err e :: es => .err e :: plainScript closed es
  | closed, .bad :: es => .err .invalidData :: plainScript closed es

/-- The same for a stream that holds plain text. -/
def TlsStream.script (t : TlsStream) : List Ev := (if t.sess.plain = [] then [] else [.data t.sess.plain]) ++ plainScript t.sess.peerEof t.input

/-- The handshake is over, nothing waits to be sent, and the peer only sends data and perhaps a close_notify. (A peer that asks for an answer, as by a key
update, is excluded: the answer makes rustls report an end of stream.) -/
structure TlsStream.Quiet (t : TlsStream) : Prop where
  done : t.sess.handshaking = false
  good : t.sess.failed = false
  out : t.sess.out = []
  input : ∀ e ∈ t.input, e ≠ .bad ∧ ∀ a b c d, e = .records a b c d → d = false

/-- The peer does a handshake and then sends data and nothing else: it does not close the connection, what it sends is valid, and it asks for an answer only during the handshake. `h`: the handshake goes on. -/
def TlsEv.Orderly : Bool → List TlsEv → Prop
  | _, [] => True
  | h, .records ends _ close reply :: es => close = false ∧ (reply = true → h = true) ∧ Orderly (h && !ends) es
  | h, .err e :: es => e = .wouldBlock ∧ Orderly h es
  | _, .bad :: _ => False
  | _, .eof :: _ => False

end Verif
