import Verif.Spec.Writing

/-!
Which messages survive being written and read back. Nothing here refers to the parsers.
-/

namespace Verif

/-- The first value of a header. -/
def HeaderMap.First (m : HeaderMap) (k : Header) (v : Bytes) : Prop := ∃ vs, (k, v :: vs) ∈ m

/-- Headers that can be written: as in any `HashMap` the keys are different; they were made from some text
(or are the predefined constants), each has a value, the lines are lines of the grammar and all together
have at most 4096 bytes with the empty line. -/
structure HeaderMap.Writable (m : HeaderMap) : Prop where
  wf : m.WF
  made : ∀ e ∈ m, ∃ name, e.1 = Header.ofStr name
  valued : ∀ e ∈ m, e.2 ≠ []
  text : ∀ e ∈ m, ∀ v ∈ e.2, FieldText (e.1.asStr, v)
  size : (m.flatMap fun e => e.2.flatMap fun v => e.1.asStr ++ b!": " ++ v ++ b!"\r\n").length + 2 ≤ 4096

/-- The Content-Length says how long the body is, and one parse call can take it. -/
def HeaderMap.Sized (m : HeaderMap) (body : Bytes) : Prop :=
  ∃ v, m.First Header.contentLength v ∧ UnsignedText 10 v body.length ∧ 2 * body.length ≤ 3 * 1024 * 1024

/-- Nothing in the headers says how long the body is. -/
def HeaderMap.Unframed (m : HeaderMap) : Prop :=
  (∀ v, ¬ m.First Header.contentLength v) ∧ ∀ v, m.First Header.transferEncoding v → ¬ Occurs b!"chunked" v

/-- A request that can be sent: the target has no space and no line feed, is valid UTF-8 and leaves the
request line within 510 bytes; the body is described by Content-Length, or there is none. -/
structure Request.Sendable (q : Request) : Prop where
  noSp : SP ∉ q.uri
  noLf : LF ∉ q.uri
  utf8 : utf8Valid q.uri = true
  short : q.method.text.length + q.uri.length ≤ 500
  headers : q.headers.Writable
  body : q.headers.Sized q.body ∨ q.headers.Unframed ∧ q.body = []

/-- A response that can be sent: predefined status, and the body is described by Content-Length. -/
structure Response.Sendable (s : Response) : Prop where
  status : s.status ∈ statusTable
  headers : s.headers.Writable
  body : s.headers.Sized s.body

/-- A response that can be sent if the connection is closed behind it. -/
structure Response.SendableLast (s : Response) : Prop where
  status : s.status ∈ statusTable
  headers : s.headers.Writable
  unframed : s.headers.Unframed
  body : s.body.length < 3 * 1024 * 1024

end Verif
