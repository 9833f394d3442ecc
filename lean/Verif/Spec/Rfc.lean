import Verif.Spec.Grammar

/-!
HTTP/1.1 requests as RFC 9112 (and RFC 9110 for fields) defines them, as far as it matters for where a request ends and what it says. Nothing here refers to the
program.
-/

namespace Verif.Rfc

/-- `tchar`, RFC 9110 5.6.2. -/
def tchar (b : UInt8) : Bool := (48 ≤ b && b ≤ 57) || (65 ≤ b && b ≤ 90) || (97 ≤ b && b ≤ 122) || b ∈ b!"!#$%&'*+-.^_`|~"

/-- `token`, RFC 9110 5.6.2. -/
def Token (t : Bytes) : Prop := t ≠ [] ∧ ∀ b ∈ t, tchar b = true

/-- Space or tab. -/
def blank (b : UInt8) : Bool := b = 32 || b = 9

/-- A byte that may occur in a field value, RFC 9110 5.5: blank, visible, or not ASCII. -/
def content (b : UInt8) : Bool := blank b || (33 ≤ b && b ≠ 127)

/-- `field-value`, RFC 9110 5.5: it neither begins nor ends with a blank. -/
structure FieldValue (v : Bytes) : Prop where
  bytes : ∀ b ∈ v, content b = true
  first : ∀ b, v.head? = some b → blank b = false
  last : ∀ b, v.getLast? = some b → blank b = false

/-- `field-line = field-name ":" OWS field-value OWS`, RFC 9112 5. -/
structure FieldLine (f : Bytes × Bytes) (line : Bytes) : Prop where
  name : Token f.1
  value : FieldValue f.2
  text : ∃ o₁ o₂, (∀ b ∈ o₁, blank b = true) ∧ (∀ b ∈ o₂, blank b = true) ∧ line = f.1 ++ b!":" ++ o₁ ++ f.2 ++ o₂

/-- Some field lines, each with its CRLF. -/
inductive Section : List (Bytes × Bytes) → Bytes → Prop
  | nil : Section [] []
  | cons {f : Bytes × Bytes} {fs : List (Bytes × Bytes)} {line w : Bytes} : FieldLine f line → Section fs w → Section (f :: fs) (line ++ CRLF ++ w)

/-- Lower case. -/
def fold (t : Bytes) : Bytes := t.map fun b => if 65 ≤ b ∧ b ≤ 90 then b + 32 else b

/-- The parts between commas. -/
def commas : Bytes → List Bytes
  | [] => [[]]
  | b :: bs =>
    if b = 44 then [] :: commas bs
    else match commas bs with
      | [] => [[b]]
      | x :: xs => (b :: x) :: xs

/-- Without blanks at the ends. -/
def trim (t : Bytes) : Bytes := ((t.dropWhile blank).reverse.dropWhile blank).reverse

/-- The elements of all fields of this name (in lower case), RFC 9110 5.2, 5.3, 5.6.1: each field value is a list with commas, and the lists are joined. -/
def values (fs : List (Bytes × Bytes)) (name : Bytes) : List Bytes :=
  (fs.filter fun f => fold f.1 = name).flatMap fun f => (commas f.2).map trim

/-- How the body of a request is delimited, RFC 9112 6.3. If the last transfer coding is chunked, that counts and Content-Length does not (3, 4). Otherwise, without
Transfer-Encoding, Content-Length counts, if its value is a decimal numeral or several times the same one (5, 6). Without both there is no body (7). In all other cases there
is no valid framing: the request has to be refused. -/
inductive Framed (fs : List (Bytes × Bytes)) : Framing → Prop
  | chunked {cs : List Bytes} {c : Bytes} : values fs b!"transfer-encoding" = cs ++ [c] → fold c = b!"chunked" → Framed fs .chunked
  | length {v : Bytes} {n : Nat} : values fs b!"transfer-encoding" = [] → values fs b!"content-length" ≠ [] → (∀ x ∈ values fs b!"content-length", x = v) →
      Numeral 10 v n → Framed fs (.length n)
  | none : values fs b!"transfer-encoding" = [] → values fs b!"content-length" = [] → Framed fs .noBody

/-- Chunk extensions, RFC 9112 7.1.1, roughly. -/
def Extension (e : Bytes) : Prop := e = [] ∨ ∃ t, e = 59 :: t ∧ ∀ b ∈ t, content b = true

/-- The chunked coding of a body, RFC 9112 7.1: chunks, the last of size zero, trailer fields. -/
inductive Chunked : Bytes → Bytes → Prop
  | last {z e tw : Bytes} {fs : List (Bytes × Bytes)} : Numeral 16 z 0 → Extension e → Section fs tw → Chunked (z ++ e ++ CRLF ++ tw ++ CRLF) []
  | chunk {z e d w body : Bytes} : Numeral 16 z d.length → d ≠ [] → Extension e → Chunked w body → Chunked (z ++ e ++ CRLF ++ d ++ CRLF ++ w) (d ++ body)

/-- The text of a body. -/
def BodyOf : Framing → Bytes → Bytes → Prop
  | .length n, w, body => w = body ∧ body.length = n
  | .chunked, w, body => Chunked w body
  | .untilEof, _, _ => False
  | .noBody, w, body => w = [] ∧ body = []

/-- What a request says. -/
structure Message where
  method : Bytes
  target : Bytes
  fields : List (Bytes × Bytes)
  body : Bytes

/-- `request-line = method SP request-target SP HTTP-version`, RFC 9112 3. -/
def RequestLine (m : Message) (line : Bytes) : Prop :=
  ∃ version, (version = b!"HTTP/1.0" ∨ version = b!"HTTP/1.1") ∧ Token m.method ∧ m.target ≠ [] ∧ (∀ b ∈ m.target, 33 ≤ b ∧ b ≤ 126) ∧
    line = m.method ++ [SP] ++ m.target ++ [SP] ++ version

/-- `w` is a request that says `m`, RFC 9112 2.1. -/
def RequestOf (w : Bytes) (m : Message) : Prop :=
  ∃ line sw f bw, RequestLine m line ∧ Section m.fields sw ∧ Framed m.fields f ∧ BodyOf f bw m.body ∧ w = line ++ CRLF ++ sw ++ CRLF ++ bw

/-- A request of the program says the same. -/
structure Means (m : Message) (q : Request) : Prop where
  method : q.method.text = m.method
  target : q.uri = m.target
  headers : q.headers = HeaderMap.fromPairs (fieldMap m.fields)
  body : q.body = m.body

/-- A request in the plainest form: one blank after each colon and none at the end of a line; not both Content-Length and Transfer-Encoding, and neither of them twice; `chunked` in lower
case; neither chunk extensions nor trailer fields; fields that are valid UTF-8; and everything within the limits. -/
structure Plain (w : Bytes) (m : Message) : Prop where
  method : ∃ x : Method, x.text = m.method
  target : m.target ≠ [] ∧ ∀ b ∈ m.target, 33 ≤ b ∧ b ≤ 126
  lineSize : m.method.length + m.target.length ≤ 500
  fields : ∀ f ∈ m.fields, Token f.1 ∧ FieldValue f.2 ∧ utf8Valid f.2 = true ∧ (fieldLine f).length ≤ 510
  size : (fieldLines m.fields).length + 2 ≤ 4096
  text : ∃ version bw, (version = b!"HTTP/1.0" ∨ version = b!"HTTP/1.1") ∧
    w = m.method ++ [SP] ++ m.target ++ [SP] ++ version ++ CRLF ++ fieldLines m.fields ++ CRLF ++ bw ∧
    ((m.fields.filter (fun f => fold f.1 = b!"content-length") = [] ∧ m.fields.filter (fun f => fold f.1 = b!"transfer-encoding") = [] ∧ bw = [] ∧ m.body = []) ∨
     (∃ f v, m.fields.filter (fun f => fold f.1 = b!"content-length") = [(f, v)] ∧ m.fields.filter (fun f => fold f.1 = b!"transfer-encoding") = [] ∧
        Numeral 10 v m.body.length ∧ 2 * m.body.length ≤ 3 * 1024 * 1024 ∧ bw = m.body) ∨
     (∃ f, m.fields.filter (fun f => fold f.1 = b!"content-length") = [] ∧ m.fields.filter (fun f => fold f.1 = b!"transfer-encoding") = [(f, b!"chunked")] ∧
        bw.length ≤ 3 * 1024 * 1024 ∧ ∃ cs z, (∀ c ∈ cs, Numeral 16 c.1 c.2.length ∧ c.1.length ≤ 510 ∧ c.2 ≠ []) ∧ Numeral 16 z 0 ∧ z.length ≤ 510 ∧
          bw = chunkLines cs ++ z ++ CRLF ++ CRLF ∧ m.body = chunkData cs))

/-- Nothing in a request that the server accepts, with this first line, these fields, this framing and this text of the body, is contrary to RFC 9112: nothing follows the version; the
target is visible ASCII; names are tokens, values have no blanks at their ends and no control characters; Content-Length and Transfer-Encoding are not given twice, nor both; the transfer
coding is `chunked`; and no length has a sign. -/
structure Clean (line : Bytes) (fs : List (Bytes × Bytes)) (f : Framing) (bw : Bytes) : Prop where
  strict : ∃ m u, StrictRequestLine m u line ∧ u ≠ [] ∧ ∀ b ∈ u, 33 ≤ b ∧ b ≤ 126
  fields : ∀ f ∈ fs, Token f.1 ∧ FieldValue f.2
  one : (fs.filter fun f => fold f.1 = b!"content-length" ∨ fold f.1 = b!"transfer-encoding").length ≤ 1
  coding : ∀ f ∈ fs, fold f.1 = b!"transfer-encoding" → f.2 = b!"chunked"
  sign : ∀ f ∈ fs, fold f.1 = b!"content-length" → f.2.head? ≠ some 43
  chunks : f = .chunked → ∀ cs last, (∀ c ∈ cs, ChunkText c) → bw = chunkLines cs ++ last ++ CRLF ++ CRLF → (∀ c ∈ cs, c.1.head? ≠ some 43) ∧ last.head? ≠ some 43

end Verif.Rfc
