import Verif.Spec.Rfc

/-!
HTTP/1.1 responses as RFC 9112 defines them, as far as it matters for where a response ends and what it says. Nothing here refers to the program.
-/

namespace Verif.Rfc

/-- What a response says. -/
structure Answer where
  code : Nat
  fields : List (Bytes × Bytes)
  body : Bytes

/-- `status-line = HTTP-version SP status-code SP [ reason-phrase ]`, RFC 9112 4. -/
def StatusLine (a : Answer) (line : Bytes) : Prop :=
  ∃ version c reason, (version = b!"HTTP/1.0" ∨ version = b!"HTTP/1.1") ∧ c.length = 3 ∧ Numeral 10 c a.code ∧ (∀ b ∈ reason, content b = true) ∧
    line = version ++ [SP] ++ c ++ [SP] ++ reason

/-- Responses that have no body whatever their fields say, RFC 9112 6.3 (1). (The other ones of that rule, to HEAD, do not occur: the client cannot send HEAD.) -/
def Bodiless (code : Nat) : Prop := code < 200 ∨ code = 204 ∨ code = 304

/-- How the body of a response is delimited, RFC 9112 6.3. -/
inductive Delimited (code : Nat) (fs : List (Bytes × Bytes)) : Framing → Prop
  | empty : Bodiless code → Delimited code fs .noBody
  | chunked {cs : List Bytes} {c : Bytes} : ¬ Bodiless code → values fs b!"transfer-encoding" = cs ++ [c] → fold c = b!"chunked" → Delimited code fs .chunked
  | coding {cs : List Bytes} {c : Bytes} : ¬ Bodiless code → values fs b!"transfer-encoding" = cs ++ [c] → fold c ≠ b!"chunked" → Delimited code fs .untilEof
  | length {v : Bytes} {n : Nat} : ¬ Bodiless code → values fs b!"transfer-encoding" = [] → values fs b!"content-length" ≠ [] →
      (∀ x ∈ values fs b!"content-length", x = v) → Numeral 10 v n → Delimited code fs (.length n)
  | close : ¬ Bodiless code → values fs b!"transfer-encoding" = [] → values fs b!"content-length" = [] → Delimited code fs .untilEof

/-- The text of a body. -/
def AnswerBody : Framing → Bytes → Bytes → Prop
  | .untilEof, w, body => w = body
  | f, w, body => BodyOf f w body

/-- `w` is a response that says `a`, and ends as `f` says (if that is the end of the stream, it has to follow). -/
def AnswerOf (w : Bytes) (f : Framing) (a : Answer) : Prop :=
  ∃ line sw bw, StatusLine a line ∧ Section a.fields sw ∧ Delimited a.code a.fields f ∧ AnswerBody f bw a.body ∧ w = line ++ CRLF ++ sw ++ CRLF ++ bw

/-- A response of the program says the same. -/
structure Conveys (a : Answer) (s : Response) : Prop where
  code : s.status.code = a.code
  headers : s.headers = HeaderMap.fromPairs (fieldMap a.fields)
  body : s.body = a.body

/-- A response in the plainest form: a status that the client knows, neither 204 nor 304; one blank after each colon and none at the end of a line; not both Content-Length and
Transfer-Encoding, and neither of them twice; `chunked` in lower case; neither chunk extensions nor trailer fields; lines that are valid UTF-8; and everything within the limits. -/
structure PlainAnswer (w : Bytes) (f : Framing) (a : Answer) : Prop where
  status : ∃ s ∈ statusTable, s.code = a.code
  full : ¬ Bodiless a.code
  fields : ∀ f ∈ a.fields, Token f.1 ∧ FieldValue f.2 ∧ utf8Valid f.2 = true ∧ (fieldLine f).length ≤ 510
  size : (fieldLines a.fields).length + 2 ≤ 4096
  text : ∃ version c reason bw, (version = b!"HTTP/1.0" ∨ version = b!"HTTP/1.1") ∧ c.length = 3 ∧ Numeral 10 c a.code ∧ (∀ b ∈ reason, content b = true) ∧
    utf8Valid reason = true ∧ reason.length ≤ 490 ∧ w = version ++ [SP] ++ c ++ [SP] ++ reason ++ CRLF ++ fieldLines a.fields ++ CRLF ++ bw ∧
    ((f = .untilEof ∧ a.fields.filter (fun f => fold f.1 = b!"content-length") = [] ∧ a.fields.filter (fun f => fold f.1 = b!"transfer-encoding") = [] ∧
        bw.length < 3 * 1024 * 1024 ∧ a.body = bw) ∨
     (f = .length a.body.length ∧ ∃ k v, a.fields.filter (fun f => fold f.1 = b!"content-length") = [(k, v)] ∧
        a.fields.filter (fun f => fold f.1 = b!"transfer-encoding") = [] ∧ Numeral 10 v a.body.length ∧ 2 * a.body.length ≤ 3 * 1024 * 1024 ∧ bw = a.body) ∨
     (f = .chunked ∧ ∃ k, a.fields.filter (fun f => fold f.1 = b!"content-length") = [] ∧ a.fields.filter (fun f => fold f.1 = b!"transfer-encoding") = [(k, b!"chunked")] ∧
        bw.length ≤ 3 * 1024 * 1024 ∧ ∃ cs z, (∀ c ∈ cs, Numeral 16 c.1 c.2.length ∧ c.1.length ≤ 510 ∧ c.2 ≠ []) ∧ Numeral 16 z 0 ∧ z.length ≤ 510 ∧
          bw = chunkLines cs ++ z ++ CRLF ++ CRLF ∧ a.body = chunkData cs))

/-- Nothing in a response that the client accepts is contrary to RFC 9112: the status line is as it should be, and the status neither 204 nor 304 (the client knows none below 200); the rest as
with `Clean`. -/
structure CleanAnswer (line : Bytes) (fs : List (Bytes × Bytes)) (f : Framing) (bw : Bytes) : Prop where
  strict : ∃ a, StatusLine a line ∧ ¬ Bodiless a.code
  fields : ∀ f ∈ fs, Token f.1 ∧ FieldValue f.2
  one : (fs.filter fun f => fold f.1 = b!"content-length" ∨ fold f.1 = b!"transfer-encoding").length ≤ 1
  coding : ∀ f ∈ fs, fold f.1 = b!"transfer-encoding" → f.2 = b!"chunked"
  sign : ∀ f ∈ fs, fold f.1 = b!"content-length" → f.2.head? ≠ some 43
  chunks : f = .chunked → ∀ cs last, (∀ c ∈ cs, ChunkText c) → bw = chunkLines cs ++ last ++ CRLF ++ CRLF → (∀ c ∈ cs, c.1.head? ≠ some 43) ∧ last.head? ≠ some 43

end Verif.Rfc
