import Verif.Spec.Serving

/-!
When the server closes a connection, as a relation on what the calls it makes return. Nothing is assumed about the
input or the socket.
-/

namespace Verif

/-- What writing an answer of the router returns, and the writer after it. -/
def answerOutcome (w : Nbw) : ListenerResult → IoRes × Nbw
  | .next => Write.andThen (Write.writeAll w b!"HTTP/1.1 404 Not Found\r\n\r\n") fun w => Write.res (Write.flush w)
  | .sendResponse r => writeResponse w r
  | .sendResponseArc r => writeResponse w r

/-- What writing the answer to something that is no request returns, and the writer after it. -/
def refusalOutcome (w : Nbw) : IoRes × Nbw :=
  Write.andThen (Write.writeAll w b!"HTTP/1.1 400 Bad Request\r\n\r\n") fun w => Write.res (Write.flush w)

/-- The requests `qs` are read one after the other, and each is answered before the next is read. All the answers could be
written, and none of the requests asks for the connection to be closed. -/
inductive GoesOn {σ : Type} (prof : Profile) (rt : Router σ) : Conn Rd Nbw → σ → List Request → Conn Rd Nbw → σ → Prop
  | nil {c : Conn Rd Nbw} {s : σ} : GoesOn prof rt c s [] c s
  | cons {c c' : Conn Rd Nbw} {s s₁ s' : σ} {q : Request} {qs : List Request} {a : ListenerResult} {r : Rd} {w : Nbw} :
      RequestParser.parse prof (c.parser.getD .new) c.reader = (.done q, r) → rt.result q s = (some a, s₁) →
      answerOutcome c.writer a = (.ok, w) → ¬ CloseAsked q → GoesOn prof rt ⟨r, w, none⟩ s₁ qs c' s' → GoesOn prof rt c s (q :: qs) c' s'

/-- The stream is at its end and nothing of a request has been read, or the connection was aborted. -/
def HungUp (p : RequestParser) (e : IoError) : Prop := e = .unexpectedEof ∧ p.hasData = false ∨ e = .connectionAborted

/-- How an invocation of the handler ends that has come to the connection `c` with the listeners in state `s`. -/
inductive Ending {σ : Type} (prof : Profile) (rt : Router σ) (c : Conn Rd Nbw) (s : σ) : HandleEnd × Slot Rd Nbw × σ → Prop
  /-- There is nothing more to read now: the connection is kept. -/
  | waits {p : RequestParser} {r : Rd} : RequestParser.parse prof (c.parser.getD .new) c.reader = (.io p .wouldBlock, r) →
      Ending prof rt c s (.done, .live ⟨r, c.writer, some p⟩, s)
  /-- A request is answered that asks for the connection to be closed: it is closed. -/
  | asked {q : Request} {r : Rd} {a : ListenerResult} {s₁ : σ} {w : Nbw} :
      RequestParser.parse prof (c.parser.getD .new) c.reader = (.done q, r) → rt.result q s = (some a, s₁) →
      answerOutcome c.writer a = (.ok, w) → CloseAsked q → Ending prof rt c s (.done, .gone ⟨r, w, none⟩, s₁)
  /-- The answer to a request could not be written: the connection is closed. -/
  | unwritten {q : Request} {r : Rd} {a : ListenerResult} {s₁ : σ} {w : Nbw} {e : IoError} :
      RequestParser.parse prof (c.parser.getD .new) c.reader = (.done q, r) → rt.result q s = (some a, s₁) →
      answerOutcome c.writer a = (.err e, w) → Ending prof rt c s (.done, .gone ⟨r, w, none⟩, s₁)
  /-- The client is gone: the connection is closed. -/
  | hungUp {p : RequestParser} {e : IoError} {r : Rd} : RequestParser.parse prof (c.parser.getD .new) c.reader = (.io p e, r) →
      HungUp p e → Ending prof rt c s (.done, .gone ⟨r, c.writer, none⟩, s)
  /-- What is read is no request: this is answered and the connection is closed, whether or not the answer can be written. -/
  | refused {r : Rd} {e : ParsingError} : RequestParser.parse prof (c.parser.getD .new) c.reader = (.perr e, r) →
      Ending prof rt c s (.done, .gone ⟨r, (refusalOutcome c.writer).2, none⟩, s)
  /-- Reading fails in another way: as before. -/
  | failed {p : RequestParser} {e : IoError} {r : Rd} : RequestParser.parse prof (c.parser.getD .new) c.reader = (.io p e, r) →
      e ≠ .wouldBlock → ¬ HungUp p e → Ending prof rt c s (.done, .gone ⟨r, (refusalOutcome c.writer).2, none⟩, s)
  /-- A listener panics. -/
  | listenerPanic {q : Request} {r : Rd} {s₁ : σ} : RequestParser.parse prof (c.parser.getD .new) c.reader = (.done q, r) →
      rt.result q s = (none, s₁) → Ending prof rt c s (.panic, .poisoned ⟨r, c.writer, none⟩, s₁)
  /-- A parser panics. -/
  | parserPanic {r : Rd} : RequestParser.parse prof (c.parser.getD .new) c.reader = (.panic, r) →
      Ending prof rt c s (.panic, .poisoned ⟨r, c.writer, none⟩, s)

/-- How one invocation of the handler goes. If what is still to be sent cannot be written, the connection is closed. Otherwise
requests are read and answered, and then the invocation ends in one of the ways above. -/
def Invocation {σ : Type} (prof : Profile) (rt : Router σ) (c : Conn Rd Nbw) (s : σ) (y : HandleEnd × Slot Rd Nbw × σ) : Prop :=
  (∃ e w, c.writer.flush = (.error e, w) ∧ y = (.done, .gone { c with writer := w }, s)) ∨
    ∃ w qs c₁ s₁, c.writer.flush = (.ok (), w) ∧ GoesOn prof rt { c with writer := w } s qs c₁ s₁ ∧ Ending prof rt c₁ s₁ y

end Verif
