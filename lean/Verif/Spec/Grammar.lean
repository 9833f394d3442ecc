import Verif.Model.Parse
import Verif.Spec.Numeral
import Verif.Spec.Text

/-!
The messages on the wire, declaratively: which byte strings are requests, responses and bodies, and
what they say. Nothing here refers to the parsers.
-/

namespace Verif

/-- The text of one line, without its CRLF: valid UTF-8 without a line feed, at most 510 bytes. -/
structure LineText (l : Bytes) : Prop where
  noLf : LF ∉ l
  utf8 : utf8Valid l = true
  short : l.length ≤ 510

/-- The line of a header field. -/
def fieldLine (f : Bytes × Bytes) : Bytes := f.1 ++ b!": " ++ f.2

/-- A header field: name and value are separated by the first `": "` of the line. -/
structure FieldText (f : Bytes × Bytes) : Prop where
  line : LineText (fieldLine f)
  first : ¬ Occurs b!": " f.1

/-- The header lines of some fields. -/
def fieldLines (fs : List (Bytes × Bytes)) : Bytes := fs.flatMap fun f => fieldLine f ++ CRLF

/-- The header map of some fields. -/
def fieldMap (fs : List (Bytes × Bytes)) : List (Header × Bytes) := fs.map fun f => (Header.ofStr f.1, f.2)

/-- How the body of a message is delimited. -/
inductive Framing
  | length (n : Nat)
  | chunked
  | untilEof
  | noBody
  deriving DecidableEq

/-- The framing announced by the headers, or the error they cause, as documented: the first
Content-Length counts, then the first Transfer-Encoding. -/
inductive Announces (ps : List (Header × Bytes)) (isResponse : Bool) : Except ParsingError Framing → Prop
  | length {v : Bytes} {n : Nat} :
      (ps.find? fun p => p.1 = Header.contentLength).map Prod.snd = some v →
      UnsignedText 10 v n → n ≤ 3 * 1024 * 1024 → Announces ps isResponse (.ok (.length n))
  | tooLarge {v : Bytes} {n : Nat} :
      (ps.find? fun p => p.1 = Header.contentLength).map Prod.snd = some v →
      UnsignedText 10 v n → 3 * 1024 * 1024 < n → n < 2 ^ 64 →
      Announces ps isResponse (.error .contentLengthTooLarge)
  | badLength {v : Bytes} :
      (ps.find? fun p => p.1 = Header.contentLength).map Prod.snd = some v →
      (∀ n, UnsignedText 10 v n → 2 ^ 64 ≤ n) →
      Announces ps isResponse (.error .invalidHeaderValue)
  | chunked {v : Bytes} : (∀ p ∈ ps, p.1 ≠ Header.contentLength) →
      (ps.find? fun p => p.1 = Header.transferEncoding).map Prod.snd = some v →
      Occurs b!"chunked" v → Announces ps isResponse (.ok .chunked)
  | none : (∀ p ∈ ps, p.1 ≠ Header.contentLength) →
      (∀ v, (ps.find? fun p => p.1 = Header.transferEncoding).map Prod.snd = some v →
        ¬ Occurs b!"chunked" v) →
      Announces ps isResponse (.ok (if isResponse then .untilEof else .noBody))

/-- A chunk: the text of its size in hexadecimal and its data. -/
structure ChunkText (c : Bytes × Bytes) : Prop where
  short : c.1.length ≤ 510
  size : UnsignedText 16 c.1 c.2.length
  nonEmpty : c.2 ≠ []
  max : c.2.length ≤ 3 * 1024 * 1024

/-- Chunks on the wire. -/
def chunkLines (cs : List (Bytes × Bytes)) : Bytes := cs.flatMap fun c => c.1 ++ CRLF ++ c.2 ++ CRLF

/-- The data of some chunks. -/
def chunkData (cs : List (Bytes × Bytes)) : Bytes := cs.flatMap Prod.snd

/-- `w` is a chunked coding of `body`: non-empty chunks, then one of size zero. -/
def ChunkedText (w body : Bytes) : Prop :=
  ∃ cs last, (∀ c ∈ cs, ChunkText c) ∧ last.length ≤ 510 ∧ UnsignedText 16 last 0 ∧
    w = chunkLines cs ++ last ++ CRLF ++ CRLF ∧ body = chunkData cs

/-- `w` is the body `body` under the given framing (end of stream itself is not part of `w`). -/
def BodyText : Framing → Bytes → Bytes → Prop
  | .length n, w, body => w = body ∧ body.length = n
  | .chunked, w, body => ChunkedText w body
  | .untilEof, w, body => w = body
  | .noBody, w, body => w = [] ∧ body = []

/-- `w` is a message with the given first line, fields, framing and body. -/
structure MessageText (line : Bytes) (fs : List (Bytes × Bytes)) (isResponse : Bool) (f : Framing)
    (bw body w : Bytes) : Prop where
  lineOk : LineText line
  fields : ∀ x ∈ fs, FieldText x
  framing : Announces (fieldMap fs) isResponse (.ok f)
  bodyOk : BodyText f bw body
  wire : w = line ++ CRLF ++ fieldLines fs ++ CRLF ++ bw

/-- `line` is a request line: method, target and version, separated by single spaces; whatever follows
a third space is ignored. -/
def RequestLine (m : Method) (uri line : Bytes) : Prop :=
  ∃ version extra, (version = b!"HTTP/1.0" ∨ version = b!"HTTP/1.1") ∧ SP ∉ uri ∧
    (extra = [] ∨ ∃ t, extra = SP :: t) ∧ line = m.text ++ [SP] ++ uri ++ [SP] ++ version ++ extra

/-- `line` is a request line with nothing after the version. -/
def StrictRequestLine (m : Method) (uri line : Bytes) : Prop :=
  ∃ version, (version = b!"HTTP/1.0" ∨ version = b!"HTTP/1.1") ∧ SP ∉ uri ∧
    line = m.text ++ [SP] ++ uri ++ [SP] ++ version

/-- `line` is a status line: version and code, separated by a space; the rest is ignored. -/
def StatusLine (s : Status) (line : Bytes) : Prop :=
  ∃ version code extra, (version = b!"HTTP/1.0" ∨ version = b!"HTTP/1.1") ∧ s ∈ statusTable ∧
    UnsignedText 10 code s.code ∧
    (extra = [] ∨ ∃ t, extra = SP :: t) ∧ line = version ++ [SP] ++ code ++ extra

/-- `w` is the request `q`. -/
def RequestText (w : Bytes) (q : Request) : Prop :=
  ∃ line fs f bw, RequestLine q.method q.uri line ∧ MessageText line fs false f bw q.body w ∧
    q.headers = HeaderMap.fromPairs (fieldMap fs)

/-- `w` is the response `s` (to be followed by end of stream if it has no other framing). -/
def ResponseText (w : Bytes) (s : Response) : Prop :=
  ∃ line fs f bw, StatusLine s.status line ∧ MessageText line fs true f bw s.body w ∧
    s.headers = HeaderMap.fromPairs (fieldMap fs)

/-- What one parse call can take: the header section has at most 4096 bytes, a body with a
Content-Length at most half of 3 MiB, a chunked body at most 3 MiB on the wire, and a body delimited by
end of stream less than 3 MiB. -/
def Fits (fs : List (Bytes × Bytes)) (f : Framing) (bw : Bytes) : Prop :=
  (fieldLines fs).length + 2 ≤ 4096 ∧
    match f with
    | .length n => 2 * n ≤ 3 * 1024 * 1024
    | .chunked => bw.length ≤ 3 * 1024 * 1024
    | .untilEof => bw.length < 3 * 1024 * 1024
    | .noBody => True

/-- `w` is the request `q`, within the limits of one parse call. -/
def FittingRequest (w : Bytes) (q : Request) : Prop :=
  ∃ line fs f bw, RequestLine q.method q.uri line ∧ MessageText line fs false f bw q.body w ∧
    q.headers = HeaderMap.fromPairs (fieldMap fs) ∧ Fits fs f bw

/-- `w` is the response `s`, with the given framing, within the limits of one parse call. -/
def FittingResponse (w : Bytes) (f : Framing) (s : Response) : Prop :=
  ∃ line fs bw, StatusLine s.status line ∧ MessageText line fs true f bw s.body w ∧
    s.headers = HeaderMap.fromPairs (fieldMap fs) ∧ Fits fs f bw

end Verif
