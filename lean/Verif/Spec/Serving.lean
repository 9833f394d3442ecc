import Verif.Model.Server
import Verif.Spec.Writing
import Verif.Spec.Input

/-!
Independent notions about serving a connection.
-/

namespace Verif

/-- What is sent to the client for a result of the router. -/
def answerBytes : ListenerResult → Bytes
  | .next => b!"HTTP/1.1 404 Not Found\r\n\r\n"
  | .sendResponse r => responseBytes r
  | .sendResponseArc r => responseBytes r

/-- The router is asked about the requests one after the other, each once, and the answers make up `out`. -/
inductive Served {σ : Type} (rt : Router σ) : σ → List Request → Bytes → σ → Prop
  | nil {s : σ} : Served rt s [] [] s
  | cons {s s₁ s₂ : σ} {q : Request} {qs : List Request} {a : ListenerResult} {out : Bytes} :
      rt.result q s = (some a, s₁) → Served rt s₁ qs out s₂ → Served rt s (q :: qs) (answerBytes a ++ out) s₂

/-- The client asks for the connection to be closed: there is a header line `Connection: close`, the name in
any capitalisation. -/
def CloseAsked (q : Request) : Prop := ∃ vs, q.headers.get Header.connection = some vs ∧ b!"close" ∈ vs

/-- All parts of all responses that a router gives have at most `n` bytes, and so have the fixed ones. -/
def Router.PartsLe {σ : Type} (n : Nat) (rt : Router σ) : Prop :=
  28 ≤ n ∧ ∀ q s r s', (rt.result q s = (some (.sendResponse r), s') ∨ rt.result q s = (some (.sendResponseArc r), s')) →
    r.PartsLe n

/-- The connection in a slot, or what it was when it was dropped. -/
def Slot.conn {R W : Type} : Slot R W → Conn R W
  | .live c => c
  | .gone c => c
  | .poisoned c => c

/-- A socket that does `evs` reports no error but that it is full, and it is free before the first time it is full
or the buffer, of capacity `cap`, has room for any part of at most `n` bytes. -/
def Calm (n cap : Nat) (evs : List WEv) : Prop :=
  (∀ e, .err e ∈ evs → e = .wouldBlock) ∧ (Sticky evs ∨ n ≤ cap)

/-- A writer as a connection has it: flushing the socket itself does not fail. -/
def Nbw.Steady (w : Nbw) : Prop := w.Ok ∧ ∀ e, some e ∈ w.sock.flushes → e = .wouldBlock

/-- The beginning, perhaps empty, of a request, and not all of it. -/
def Unfinished (t : Bytes) : Prop := ∃ z q, z ≠ [] ∧ FittingRequest (t ++ z) q

/-- All along some invocations of the handler, what is written to the connection goes out in order or is kept: `es`
has for each invocation what the socket does during it. -/
structure Writable {σ : Type} (rt : Router σ) (n : Nat) (c : Conn Rd Nbw) (es : List (List WEv)) : Prop where
  parts : rt.PartsLe n
  steady : c.writer.Steady
  calm : ∀ evs ∈ es, Calm n c.writer.cap evs

/-- Some bytes that are no request: a parse call that receives exactly these reports an error in them. -/
def Refused (prof : Profile) (b : Bytes) : Prop :=
  ∃ (r r' : Rd) (e : ParsingError), r.Ahead (b.map .byte) ∧ RequestParser.parse prof .new r = (.perr e, r') ∧ r'.Ahead []

/-- A parse call that receives `as` reports an error: one in the bytes, or one of the stream other than that it pauses,
ended or was aborted. -/
def Rejects (prof : Profile) (as : List Atom) : Prop :=
  ∃ r : Rd, r.Ahead as ∧ ((∃ e, (RequestParser.parse prof .new r).1 = .perr e) ∨
    ∃ p e, (RequestParser.parse prof .new r).1 = .io p e ∧ e ≠ .wouldBlock ∧ e ≠ .unexpectedEof ∧ e ≠ .connectionAborted)

/-- The number of characters of a text in UTF-8: of its bytes that do not continue a character. -/
def chars (b : Bytes) : Nat := (b.filter fun c => !isCont c).length

/-- Requests read one after the other from a stream, each by parse calls that begin with a new parser and go on
after each pause. -/
inductive Heard (prof : Profile) : Rd → List Request → Rd → Prop
  | nil {r : Rd} : Heard prof r [] r
  | cons {r r₁ r' : Rd} {q : Request} {qs : List Request} :
      Calls (RequestParser.parse prof) .new r (.done q) r₁ → Heard prof r₁ qs r' → Heard prof r (q :: qs) r'

/-- What is read from `r`, by parse calls that begin with a new parser and go on after each pause, turns out not to be a request: it
is no text of a request, or too long, or the stream ends in the middle or fails, but not because the connection is aborted. -/
def NoRequest (prof : Profile) (r : Rd) : Prop :=
  ∃ o r', Calls (RequestParser.parse prof) .new r o r' ∧ ((∃ e, o = .perr e) ∨ ∃ p e, o = .io p e ∧ e ≠ .wouldBlock ∧ e ≠ .connectionAborted)

/-- With the listeners in state `s`, nothing more was asked, or only about the request that is read next from `r`, and this made a listener
panic: the listeners are in state `s'` then. -/
def NoneAsked {σ : Type} (prof : Profile) (rt : Router σ) (r : Rd) (s s' : σ) : Prop :=
  s' = s ∨ ∃ q r', Calls (RequestParser.parse prof) .new r (.done q) r' ∧ rt.result q s = (none, s')

/-- The parser `p` is in the middle of (or before) reading from `r` what began at `r₀`: it was left by calls that began there and paused. -/
inductive InProgress (prof : Profile) (r₀ : Rd) : RequestParser → Rd → Prop
  | new : InProgress prof r₀ .new r₀
  | pause {p p' : RequestParser} {r r' : Rd} : InProgress prof r₀ p r → RequestParser.parse prof p r = (.io p' .wouldBlock, r') → InProgress prof r₀ p' r'

/-- A socket that does `evs` may report errors, but not interruptions, and it is free before the first time it
is full or the buffer, of capacity `cap`, has room for any part of at most `n` bytes. -/
def Tidy (n cap : Nat) (evs : List WEv) : Prop := .err .interrupted ∉ evs ∧ (Sticky evs ∨ n ≤ cap)

/-- The parser of a connection that is waiting: a new one, or one left by a call that paused. -/
def Paused (prof : Profile) (p : RequestParser) : Prop :=
  p = .new ∨ ∃ (p₀ : RequestParser) (r₀ r₁ : Rd), RequestParser.parse prof p₀ r₀ = (.io p .wouldBlock, r₁)

/-- No call from here can do anything but fail, whatever there is to read. -/
def Doomed (prof : Profile) (p : RequestParser) : Prop :=
  ∀ r : Rd, r.lims = [] → (RequestParser.parse prof p r).1 = .panic ∨ ∃ p', (RequestParser.parse prof p r).1 = .io p' .limitReached

/-- Successive invocations of the handler of a connection, one for each list of what its socket does during
it. Where reading pauses during an invocation is part of the input script: an invocation ends at the first
`WouldBlock`. -/
def handleAll {R σ : Type} [Reader R] (prof : Profile) (rt : Router σ) : List (List WEv) → Slot R Nbw → σ → Slot R Nbw × σ
  | [], slot, s => (slot, s)
  | evs :: es, slot, s =>
    match handle prof rt (slot.wake evs) s with
    | (_, slot, s) => handleAll prof rt es slot s

end Verif
