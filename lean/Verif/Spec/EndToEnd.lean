import Verif.Spec.Client
import Verif.Spec.Cuts
import Verif.Spec.Serving
import Verif.Spec.RoundTrip
import Verif.Spec.Net

/-!
Independent notions about a client and a server that talk to each other.
-/

namespace Verif

/-- Calls of `send` on one connection of the client, one after the other: their results. -/
def sendAll {F : Type} [StreamFactory F] (prof : Profile) : List Request → ClientConn → F → List SendEnd × ClientConn × F
  | [], c, f => ([], c, f)
  | q :: qs, c, f =>
    match c.send prof f q with
    | (x, c, f) => match sendAll prof qs c f with
      | (xs, c, f) => (x :: xs, c, f)

/-- The router is asked about the requests one after the other, each once, and gives these responses. -/
inductive Answered {σ : Type} (rt : Router σ) : σ → List Request → List Response → σ → Prop
  | nil {s : σ} : Answered rt s [] [] s
  | cons {s s₁ s₂ : σ} {q : Request} {qs : List Request} {r : Response} {rs : List Response} :
      rt.result q s = (some (.sendResponse r), s₁) ∨ rt.result q s = (some (.sendResponseArc r), s₁) →
      Answered rt s₁ qs rs s₂ → Answered rt s (q :: qs) (r :: rs) s₂

/-- How many of these take something. -/
def takers : List WEv → Nat
  | [] => 0
  | .accept _ :: es => takers es + 1
  | .err _ :: es => takers es

/-- A stream that takes at least `n` bytes: `write` takes at least one byte each time, or is interrupted, and `flush` does not fail. -/
structure RawStream.Takes (s : RawStream) (n : Nat) : Prop where
  events : ∀ ev ∈ s.output, ev = .err .interrupted ∨ ∃ n, 0 < n ∧ ev = .accept n
  flushes : ∀ x ∈ s.flushes, x = none
  enough : n ≤ takers s.output

/-- What has arrived on a connection is the beginning of the text `w`, in any pieces that end where nothing is lost. -/
structure Brings (arrived : List Ev) (w : Bytes) : Prop where
  pieces : Pieces arrived
  text : bytesOf (arrived.flatMap Ev.atoms) <+: w

/-- What the answers of the router to these requests amount to, each given in the state of the listeners that goes with it; the last of them
may have made a listener panic. -/
inductive AnsweredIn {σ : Type} (rt : Router σ) : List (Request × σ) → Bytes → Prop
  | nil : AnsweredIn rt [] []
  | cons {q : Request} {s : σ} {as : List (Request × σ)} {a : ListenerResult} {out : Bytes} :
      (rt.result q s).1 = some a → AnsweredIn rt as out → AnsweredIn rt ((q, s) :: as) (answerBytes a ++ out)
  | panic {q : Request} {s : σ} : (rt.result q s).1 = none → AnsweredIn rt [(q, s)] []

/-- Asked about a request in a state of the listeners, the router answers with a response. -/
def Router.Says {σ : Type} (rt : Router σ) (a : Request × σ) (r : Response) : Prop :=
  (rt.result a.1 a.2).1 = some (.sendResponse r) ∨ (rt.result a.1 a.2).1 = some (.sendResponseArc r)

/-- These exchanges are the first of these requests, each with what the router answered in the state of the listeners that goes with it. -/
inductive AnsweredFirst {σ : Type} (rt : Router σ) : List (Request × σ) → List (Request × Response) → Prop
  | nil {as : List (Request × σ)} : AnsweredFirst rt as []
  | cons {q : Request} {s : σ} {r : Response} {as : List (Request × σ)} {es : List (Request × Response)} :
      rt.Says (q, s) r → AnsweredFirst rt as es → AnsweredFirst rt ((q, s) :: as) ((q, r) :: es)

/-- At the other end of a stream of the client there is a connection of a server: what arrived there is the beginning of what the client sent, and what
the stream delivers is the beginning of what the server sent on it. -/
structure ClientStream.Joins {σ : Type} (st : ClientStream) (c : NConn σ) : Prop where
  there : Brings c.arrived st.writer.sock.sent
  back : bytesOf st.given <+: c.slot.conn.writer.sock.sent

end Verif
