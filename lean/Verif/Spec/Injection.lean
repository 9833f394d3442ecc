import Verif.Spec.RoundTrip

/-!
Which messages stay one message when they are written. Nothing here refers to the parsers or to their limits.
-/

namespace Verif

/-- Nothing in the headers ends a line early, and no name can be taken for another one: no line feed, and no `": "` in a name. (As in any `HashMap` the keys are different; they were made from
some text, or are the predefined constants; and each has a value.) -/
structure HeaderMap.Contained (m : HeaderMap) : Prop where
  wf : m.WF
  made : ∀ e ∈ m, ∃ name, e.1 = Header.ofStr name
  valued : ∀ e ∈ m, e.2 ≠ []
  names : ∀ e ∈ m, LF ∉ e.1.asStr ∧ ¬ Occurs b!": " e.1.asStr
  values : ∀ e ∈ m, ∀ v ∈ e.2, LF ∉ v

/-- The Content-Length says how long the body is. -/
def HeaderMap.Describes (m : HeaderMap) (body : Bytes) : Prop := ∃ v, m.First Header.contentLength v ∧ UnsignedText 10 v body.length

/-- A request that is one request: no space and no line feed in the target, contained headers, and Content-Length describes the body, or there is none. -/
structure Request.Contained (q : Request) : Prop where
  noSp : SP ∉ q.uri
  noLf : LF ∉ q.uri
  headers : q.headers.Contained
  body : q.headers.Describes q.body ∨ q.headers.Unframed ∧ q.body = []

/-- A response that is one response. -/
structure Response.Contained (s : Response) : Prop where
  status : s.status ∈ statusTable
  headers : s.headers.Contained
  body : s.headers.Describes s.body

end Verif
