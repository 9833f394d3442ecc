import Verif.Spec.Net

/-!
How much the server keeps for a connection.
-/

namespace Verif

/-- The bytes of a header map: each name once, and all values. -/
def HeaderMap.weight (m : HeaderMap) : Nat := (m.map fun e => e.1.asStr.length + (e.2.map List.length).sum).sum

/-- The bytes that a request parser has allocated. For a body or chunk of known size this is the size, since the memory is taken before the first
byte of it is read, deframe/bytes.rs 12-16. -/
def RequestParser.memory : RequestParser → Nat
  | .firstLine line => line.length
  | .headers (_, uri) p => uri.length + p.headers.weight + p.inner.length
  | .body (_, uri) hs p => uri.length + hs.weight +
    match p with
    | .withSize p => p.size
    | .untilEof d => d.length
    | .chunked ⟨body, .size line⟩ => body.length + line.length
    | .chunked ⟨body, .data p⟩ => body.length + p.size
    | .chunked ⟨body, .tailingCrlf line _⟩ => body.length + line.length
    | .chunked ⟨body, .finished⟩ => body.length
    | .empty => 0
  | .finished (_, uri) hs b => uri.length + hs.weight + b.length

/-- The bytes of a request. -/
def Request.memory (q : Request) : Nat := q.uri.length + q.headers.weight + q.body.length

/-- How many bytes have arrived. -/
def received (evs : List Ev) : Nat := (bytesOf (evs.flatMap Ev.atoms)).length

/-- How many bytes the answers to the requests have. -/
def answered {σ : Type} (rt : Router σ) (seen : List (Request × σ)) : Nat :=
  (seen.map fun x => ((rt.result x.1 x.2).1.map fun a => (answerBytes a).length).getD 0).sum

end Verif
