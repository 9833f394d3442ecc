import Verif.Model.Client
import Verif.Spec.Writing
import Verif.Spec.Input

/-!
Independent notions about the client.
-/

namespace Verif

/-- All streams a connection has or had, in the order in which they were opened. -/
def ClientConn.all (c : ClientConn) : List ClientStream := c.dropped ++ c.stream.toList

/-- What was sent to the server on a stream, and what is held to be sent. -/
def ClientStream.out (s : ClientStream) : Bytes := s.writer.sock.sent ++ s.writer.buf

/-- A history of calls of `send` on one connection, one after the other, in which each returned a response or failed
because no stream could be opened and left none; with the requests and the responses returned. -/
inductive History {F : Type} [StreamFactory F] (prof : Profile) :
    ClientConn → F → List (Request × Response) → ClientConn → F → Prop
  | nil {c : ClientConn} {f : F} : History prof c f [] c f
  | answered {c c₁ c₂ : ClientConn} {f f₁ f₂ : F} {q : Request} {r : Response} {es : List (Request × Response)} :
      History prof c f es c₁ f₁ → c₁.send prof f₁ q = (.ok r, c₂, f₂) → History prof c f (es ++ [(q, r)]) c₂ f₂
  | refused {c c₁ c₂ : ClientConn} {f f₁ f₂ : F} {q : Request} {e : IoError} {es : List (Request × Response)} :
      History prof c f es c₁ f₁ → c₁.send prof f₁ q = (.err (.connecting e), c₂, f₂) → c₂.stream = none →
      History prof c f es c₂ f₂

/-- The server at the other end of a stream answers each request it is sent with one response, in order: what the
stream delivers begins with the answers to the requests that were written on it, or is the beginning of these. The
answers are within the limits of one parse call, and say where they end. Errors, time-outs, interruptions and the end of
the stream may come anywhere in between. -/
def ClientStream.Honest (ans : Request → Response) (s : ClientStream) : Prop :=
  ∃ ws : List (Request × Bytes), ws.map Prod.fst = s.asked ∧
    (∀ p ∈ ws, ∃ f, f ≠ .untilEof ∧ FittingResponse p.2 f (ans p.1)) ∧
    (bytesOf s.given <+: ws.flatMap Prod.snd ∨ ws.flatMap Prod.snd <+: bytesOf s.given)

/-- How one attempt to send `q` on a stream must end, by what happens on the stream. -/
inductive AttemptSays (prof : Profile) (s : ClientStream) (q : Request) : SendEnd → Prop
  | writing {e : IoError} : (writeRequest s.writer q).1 = .err e → AttemptSays prof s q (.err (.writing e))
  | reading {p : ResponseParser} {e : IoError} : (writeRequest s.writer q).1 = .ok →
      (ResponseParser.parse prof .new s.reader).1 = .io p e → AttemptSays prof s q (.err (.reading e))
  | parsing {e : ParsingError} : (writeRequest s.writer q).1 = .ok →
      (ResponseParser.parse prof .new s.reader).1 = .perr e → AttemptSays prof s q (.err (.responseParsing e))
  | ok {r : Response} : (writeRequest s.writer q).1 = .ok →
      (ResponseParser.parse prof .new s.reader).1 = .done r → AttemptSays prof s q (.ok r)

end Verif
