import Verif.Model.Writer
import Verif.Spec.Grammar

/-!
Independent notions about writing: what a message looks like on the wire, and what a socket does.
-/

namespace Verif

/-- A response on the wire: status line, one line per header value, an empty line, the body. -/
def responseBytes (r : Response) : Bytes :=
  b!"HTTP/1.1 " ++ natDec r.status.code ++ b!" " ++ r.status.reason ++ b!"\r\n" ++
    (r.headers.flatMap fun e => e.2.flatMap fun v => e.1.asStr ++ b!": " ++ v ++ b!"\r\n") ++ b!"\r\n" ++ r.body

/-- A request on the wire. -/
def requestBytes (r : Request) : Bytes :=
  r.method.text ++ b!" " ++ r.uri ++ b!" HTTP/1.1\r\n" ++
    (r.headers.flatMap fun e => e.2.flatMap fun v => e.1.asStr ++ b!": " ++ v ++ b!"\r\n") ++ b!"\r\n" ++ r.body

/-- How many bytes a socket takes before it first reports an error. -/
def room : List WEv → Nat
  | .accept n :: es => n + room es
  | _ => 0

/-- The first error a socket reports when it is not given a pause; if it is none of the listed ones, the
socket is full. -/
def firstErr : List WEv → IoError
  | .accept _ :: es => firstErr es
  | .err e :: _ => e
  | [] => .wouldBlock

/-- Once the socket is full, it stays so. -/
def Sticky (evs : List WEv) : Prop := ∀ pre post, evs = pre ++ .err .wouldBlock :: post → ∀ n, .accept n ∉ post

/-- What a writer holds and has not given to the socket yet. -/
def Nbw.pending (w : Nbw) : Bytes := w.buf.drop w.pos

/-- What a socket has taken and the writer holds. -/
def Nbw.total (w : Nbw) : Bytes := w.sock.sent ++ w.pending

/-- The position is inside the buffer. -/
def Nbw.Ok (w : Nbw) : Prop := w.pos < w.buf.length ∨ w.pos = 0

/-- The socket can report error `e` (other than being full). -/
def Nbw.Faulty (w : Nbw) (e : IoError) : Prop :=
  e ≠ .wouldBlock ∧ (.err e ∈ w.sock.evs ∨ some e ∈ w.sock.flushes)

/-- Writes of at most `n` bytes go out in order: no interruption, and the buffer is large enough or the
socket does not become free in the middle. -/
structure Nbw.Orderly (n : Nat) (w : Nbw) : Prop where
  ok : w.Ok
  calm : .err .interrupted ∉ w.sock.evs
  order : Sticky w.sock.evs ∨ n ≤ w.cap

/-- Writes of at most `n` bytes go out in order and the socket reports no error (it may be full). -/
structure Nbw.Healthy (n : Nat) (w : Nbw) : Prop extends w.Orderly n where
  sound : ∀ e, ¬ w.Faulty e

/-- All parts of a response have at most `n` bytes. -/
def Response.PartsLe (n : Nat) (r : Response) : Prop :=
  8 ≤ n ∧ (natDec r.status.code).length ≤ n ∧ r.status.reason.length ≤ n ∧
    (∀ p ∈ r.headers.flat, p.1.asStr.length ≤ n ∧ p.2.length ≤ n) ∧ r.body.length ≤ n

/-- An operation on a writer. -/
inductive WOp
  | write (b : Bytes)
  | flush

/-- The bytes written by an operation. -/
def WOp.bytes : WOp → Bytes
  | .write b => b
  | .flush => []

/-- An operation and whether it succeeded. -/
def WOp.run (w : Nbw) : WOp → Bool × Nbw
  | .write b => ((w.write b).1.isOk, (w.write b).2)
  | .flush => (w.flush.1.isOk, w.flush.2)

/-- Operations one after the other until one fails; before each, time passes and the socket is given a new
script. -/
def runOps : Nbw → List (List WEv × WOp) → Bool × Nbw
  | w, [] => (true, w)
  | w, (evs, op) :: ops =>
    match op.run { w with sock := { w.sock with evs } } with
    | (true, w) => runOps w ops
    | (false, w) => (false, w)

end Verif
