import Verif.Std.Io
import Verif.Model.Message

/-!
`src/parse/`: the resumable parsers. All are generic over the reader, as in the source.
-/

namespace Verif

open Reader

/-- Build profile: whether `usize` subtraction is checked (debug: an underflow panics) or wraps
(release). Not a source file; the parsers use unchecked `-` on `usize`. -/
structure Profile where
  overflowChecks : Bool

/-- `a - b` on `usize`: `none` is a panic. -/
def Profile.sub (p : Profile) (a b : Nat) : Option Nat :=
  if b ≤ a then some (a - b) else if p.overflowChecks then none else some (usizeBound + a - b)

/-- `ParsingError`, error.rs 3-20. -/
inductive ParsingError
  | badSyntax
  | invalidHttpVersion
  | invalidHeaderValue
  | invalidChunkSize
  | contentLengthTooLarge
  | unrecognizedMethod
  | invalidStatusCode
  | invalidUtf8
  deriving DecidableEq, Repr

/-- `ParseResult`, parse.rs 8 and 19-24: `Ok(Done(v))`, `Ok(IoErr(parser, err))`, `Err(e)`; plus a
panic, and running out of the model's loop fuel (proved impossible). -/
inductive Out (σ τ : Type)
  | done (v : τ)
  | io (s : σ) (e : IoError)
  | perr (e : ParsingError)
  | panic
  | diverge
  deriving DecidableEq, Repr

/-- Continue with the value, or pass on everything else with the parser state mapped: the pattern
`match parser.parse(reader)? { Done(v) => f(v), IoErr(p, e) => IoErr(g(p), e) }` used throughout, and
`map_blocked`, parse.rs 27-32. -/
def Out.bind {σ σ' τ τ' : Type} (o : Out σ τ) (g : σ → σ') (f : τ → Out σ' τ') : Out σ' τ' :=
  match o with
  | .done v => f v
  | .io s e => .io (g s) e
  | .perr e => .perr e
  | .panic => .panic
  | .diverge => .diverge

/-- `Result<T, ParsingError>` as an outcome. -/
def Out.ofExcept {σ τ : Type} : Except ParsingError τ → Out σ τ
  | .ok v => .done v
  | .error e => .perr e

variable {R : Type} [Reader R]

/-- `BufRead::read_line` of the standard library on the line collected so far: the bytes of this call
are appended only if they are valid UTF-8 on their own; otherwise they are lost, and a successful read
becomes an `InvalidData` error while a failed one keeps its error. -/
def readLine (line : Bytes) (r : R) : IoRes × Bytes × R :=
  match readUntilLf r with
  | (o, b, r) =>
    if utf8Valid b then (o, line ++ b, r)
    else match o with
      | .ok => (.err .invalidData, line, r)
      | o => (o, line, r)

/-- `LineDeframer::read`, deframe/line.rs 18-28; the state is the `line` field. The match pops the last
character also when it is not a line feed. -/
def LineDeframer.parse (line : Bytes) (r : R) : Out Bytes Bytes × R :=
  match readLine line r with
  | (.ok, line, r) =>
    match popChar line with
    | some (rest, c) => if c = [LF] then (.done rest, r) else (.io rest .unexpectedEof, r)
    | none => (.io line .unexpectedEof, r)
  | (.err e, line, r) => (.io line e, r)
  | (.diverge, _, r) => (.diverge, r)

/-- `MAX_LINE_SIZE`, crlf_line.rs 10. -/
def maxLineSize : Nat := 512

/-- `parse_crlf_line`, crlf_line.rs 39-45. -/
def parseCrlfLine (line : Bytes) : Except ParsingError Bytes :=
  match popChar line with
  | some (rest, c) => if c = [CR] then .ok rest else .error .badSyntax
  | none => .error .badSyntax

/-- `CrlfLineParser::parse`, crlf_line.rs 27-36; the state is the line collected so far. -/
def CrlfLineParser.parse (prof : Profile) (line : Bytes) (r : R) : Out Bytes Bytes × R :=
  match prof.sub maxLineSize line.length with
  | none => (.panic, r)
  | some lim =>
    match LineDeframer.parse line (push lim r) with
    | (.done line, r) => (.ofExcept (parseCrlfLine line), pop r)
    | (.io s e, r) => (if e = .invalidData then .perr .invalidUtf8 else .io s e, pop r)
    | (.perr e, r) => (.perr e, pop r)
    | (.panic, r) => (.panic, pop r)
    | (.diverge, r) => (.diverge, pop r)

/-- `MAX_HEADERS_SIZE`, headers.rs 12. -/
def maxHeadersSize : Nat := 4096

/-- `HeadersParser`, headers.rs 15-19. -/
structure HeadersParser where
  inner : Bytes
  headers : HeaderMap
  read : Nat
  deriving DecidableEq, Repr

/-- `HeadersParser::new`, headers.rs 23-25. -/
def HeadersParser.new : HeadersParser := ⟨[], [], 0⟩

/-- `parse_header`, headers.rs 50-57. -/
def parseHeader (raw : Bytes) : Except ParsingError (Header × Bytes) :=
  match splitOnce b!": " raw with
  | some (name, value) => .ok (Header.ofStr name, value)
  | none => .error .badSyntax

/-- The loop of `HeadersParser::parse`, headers.rs 34-45. -/
def HeadersParser.loop (prof : Profile) : Nat → HeadersParser → R → Out HeadersParser HeaderMap × R
  | 0, _, r => (.diverge, r)
  | f + 1, p, r =>
    match CrlfLineParser.parse prof p.inner r with
    | (.done line, r) =>
      if line = [] then (.done p.headers, r)
      else match parseHeader line with
        | .ok (h, v) =>
          HeadersParser.loop prof f ⟨[], p.headers.addHeader h v, p.read + line.length⟩ r
        | .error e => (.perr e, r)
    | (.io inner e, r) => (.io { p with inner } e, r)
    | (.perr e, r) => (.perr e, r)
    | (.panic, r) => (.panic, r)
    | (.diverge, r) => (.diverge, r)

/-- `HeadersParser::parse`, headers.rs 28-47. -/
def HeadersParser.parse (prof : Profile) (p : HeadersParser) (r : R) :
    Out HeadersParser HeaderMap × R :=
  match prof.sub maxHeadersSize p.read with
  | none => (.panic, r)
  | some lim =>
    match HeadersParser.loop prof (fuel r) p (push lim r) with
    | (o, r) => (o, pop r)

/-- `MAX_BODY_SIZE`, body.rs 15. -/
def maxBodySize : Nat := 3 * 1024 * 1024

/-- `BytesDeframer`, deframe/bytes.rs 6-16: `size` is `data.len()` and `filled` is `data[..pos]`. -/
structure BytesDeframer where
  size : Nat
  filled : Bytes
  deriving DecidableEq, Repr

/-- `BytesDeframer::read`, deframe/bytes.rs 18-33. -/
def BytesDeframer.parse (p : BytesDeframer) (r : R) : Out BytesDeframer Bytes × R :=
  match readInto p.size p.filled r with
  | (.ok, d, r) => (.done d, r)
  | (.err e, d, r) => (.io ⟨p.size, d⟩ e, r)
  | (.diverge, _, r) => (.diverge, r)

/-- `BytesUntilEofDeframer::read`, deframe/bytes.rs 52-58; the state is the data so far. -/
def BytesUntilEofDeframer.parse (data : Bytes) (r : R) : Out Bytes Bytes × R :=
  match readToEnd data r with
  | (.ok, d, r) => (.done d, r)
  | (.err e, d, r) => (.io d e, r)
  | (.diverge, _, r) => (.diverge, r)

/-- `chunked::State`, body.rs 105-114. -/
inductive ChunkState
  | size (line : Bytes)
  | data (p : BytesDeframer)
  | tailingCrlf (line : Bytes) (isLast : Bool)
  | finished
  deriving DecidableEq, Repr

/-- `ChunksParser`, body.rs 99-102. -/
structure ChunksParser where
  body : Bytes
  state : ChunkState
  deriving DecidableEq, Repr

/-- `parse_chunk_size`, body.rs 180-186. -/
def parseChunkSize (raw : Bytes) : Except ParsingError Nat :=
  match parseUnsigned 16 usizeBound raw with
  | none => .error .invalidChunkSize
  | some n => if n > maxBodySize then .error .invalidChunkSize else .ok n

/-- `size_state`, body.rs 149-154. -/
def sizeState (prof : Profile) (line : Bytes) (r : R) : Out ChunkState ChunkState × R :=
  match CrlfLineParser.parse prof line r with
  | (o, r) => (o.bind .size fun raw =>
      match parseChunkSize raw with
      | .ok n => .done (.data ⟨n, []⟩)
      | .error e => .perr e, r)

/-- `data_state`, body.rs 157-166: the new state and the new body. -/
def dataState (p : BytesDeframer) (body : Bytes) (r : R) :
    Out ChunkState (ChunkState × Bytes) × R :=
  match BytesDeframer.parse p r with
  | (o, r) => (o.bind .data fun d => .done (.tailingCrlf [] d.isEmpty, body ++ d), r)

/-- `tailing_crlf_state`, body.rs 170-177. -/
def tailingCrlfState (prof : Profile) (line : Bytes) (isLast : Bool) (r : R) :
    Out ChunkState ChunkState × R :=
  match CrlfLineParser.parse prof line r with
  | (o, r) => (o.bind (.tailingCrlf · isLast) fun line =>
      if line ≠ [] then .perr .badSyntax
      else if isLast then .done .finished
      else .done (.size []), r)

/-- The loop of `ChunksParser::parse`, body.rs 129-145. -/
def ChunksParser.loop (prof : Profile) : Nat → ChunksParser → R → Out ChunksParser Bytes × R
  | 0, _, r => (.diverge, r)
  | f + 1, ⟨body, state⟩, r =>
    match state with
    | .finished => (.done body, r)
    | .size line =>
      match sizeState prof line r with
      | (.done st, r) => ChunksParser.loop prof f ⟨body, st⟩ r
      | (.io st e, r) => (.io ⟨body, st⟩ e, r)
      | (.perr e, r) => (.perr e, r)
      | (.panic, r) => (.panic, r)
      | (.diverge, r) => (.diverge, r)
    | .data p =>
      match dataState p body r with
      | (.done (st, body), r) => ChunksParser.loop prof f ⟨body, st⟩ r
      | (.io st e, r) => (.io ⟨body, st⟩ e, r)
      | (.perr e, r) => (.perr e, r)
      | (.panic, r) => (.panic, r)
      | (.diverge, r) => (.diverge, r)
    | .tailingCrlf line isLast =>
      match tailingCrlfState prof line isLast r with
      | (.done st, r) => ChunksParser.loop prof f ⟨body, st⟩ r
      | (.io st e, r) => (.io ⟨body, st⟩ e, r)
      | (.perr e, r) => (.perr e, r)
      | (.panic, r) => (.panic, r)
      | (.diverge, r) => (.diverge, r)

/-- `BodyParser`, body.rs 18-23. -/
inductive BodyParser
  | withSize (p : BytesDeframer)
  | untilEof (data : Bytes)
  | chunked (p : ChunksParser)
  | empty
  deriving DecidableEq, Repr

/-- `get_content_length`, body.rs 57-60. -/
def getContentLength (headers : HeaderMap) : Option (Except ParsingError Nat) :=
  (headers.getFirst Header.contentLength).map fun v =>
    match parseUnsigned 10 usizeBound v with
    | some n => .ok n
    | none => .error .invalidHeaderValue

/-- `is_chunked_transfer_encoding`, body.rs 63-66. -/
def isChunkedTransferEncoding (headers : HeaderMap) : Bool :=
  ((headers.getFirst Header.transferEncoding).map fun v => containsStr v b!"chunked").getD false

/-- `BodyParser::new`, body.rs 28-42. -/
def BodyParser.new (headers : HeaderMap) (readIfNoContentLength : Bool) :
    Except ParsingError BodyParser :=
  match getContentLength headers with
  | some (.error e) => .error e
  | some (.ok size) =>
    if size > maxBodySize then .error .contentLengthTooLarge else .ok (.withSize ⟨size, []⟩)
  | none =>
    if isChunkedTransferEncoding headers then .ok (.chunked ⟨[], .size []⟩)
    else if readIfNoContentLength then .ok (.untilEof [])
    else .ok .empty

/-- `BodyParser::read_so_far`, body.rs 45-52 (for a sized body this is the full size). -/
def BodyParser.readSoFar : BodyParser → Nat
  | .withSize p => p.size
  | .untilEof d => d.length
  | .chunked p => p.body.length
  | .empty => 0

/-- `BodyParser::parse`, body.rs 68-79. -/
def BodyParser.parse (prof : Profile) (p : BodyParser) (r : R) : Out BodyParser Bytes × R :=
  match prof.sub maxBodySize p.readSoFar with
  | none => (.panic, r)
  | some lim =>
    match p with
    | .withSize p =>
      match BytesDeframer.parse p (push lim r) with
      | (o, r) => (o.bind .withSize .done, pop r)
    | .untilEof d =>
      match BytesUntilEofDeframer.parse d (push lim r) with
      | (o, r) => (o.bind .untilEof .done, pop r)
    | .chunked p =>
      match ChunksParser.loop prof (fuel r) p (push lim r) with
      | (o, r) => (o.bind .chunked .done, pop r)
    | .empty => (.done [], r)

/-- `message::State`, message.rs 38-47, over the parsed first line `T`. The first line parsers of
requests and responses both have a `CrlfLineParser` as their whole state. -/
inductive MsgState (T : Type)
  | firstLine (line : Bytes)
  | headers (first : T) (p : HeadersParser)
  | body (first : T) (headers : HeaderMap) (p : BodyParser)
  | finished (first : T) (headers : HeaderMap) (body : Bytes)
  deriving DecidableEq, Repr

section
variable {T : Type}

/-- `first_line_state`, message.rs 70-75, together with the two `FirstLineParser::parse`,
request.rs 46-53 and response.rs 41-48, which differ in `parseFirst` only. -/
def firstLineState (prof : Profile) (parseFirst : Bytes → Except ParsingError T) (line : Bytes)
    (r : R) : Out (MsgState T) (MsgState T) × R :=
  match CrlfLineParser.parse prof line r with
  | (o, r) => (o.bind .firstLine fun l =>
      match parseFirst l with
      | .ok t => .done (.headers t .new)
      | .error e => .perr e, r)

/-- `headers_state`, message.rs 78-86. -/
def headersState (prof : Profile) (first : T) (p : HeadersParser) (readIfNoLen : Bool) (r : R) :
    Out (MsgState T) (MsgState T) × R :=
  match HeadersParser.parse prof p r with
  | (o, r) => (o.bind (.headers first) fun hs =>
      match BodyParser.new hs readIfNoLen with
      | .ok bp => .done (.body first hs bp)
      | .error e => .perr e, r)

/-- `body_state`, message.rs 89-94. -/
def bodyState (prof : Profile) (first : T) (hs : HeaderMap) (p : BodyParser) (r : R) :
    Out (MsgState T) (MsgState T) × R :=
  match BodyParser.parse prof p r with
  | (o, r) => (o.bind (.body first hs) fun b => .done (.finished first hs b), r)

/-- The loop of `MessageParser::parse`, message.rs 50-66. -/
def MessageParser.loop (prof : Profile) (parseFirst : Bytes → Except ParsingError T)
    (readIfNoLen : Bool) : Nat → MsgState T → R → Out (MsgState T) (T × HeaderMap × Bytes) × R
  | 0, _, r => (.diverge, r)
  | f + 1, st, r =>
    match st with
    | .finished t hs b => (.done (t, hs, b), r)
    | .firstLine line =>
      match firstLineState prof parseFirst line r with
      | (.done st, r) => MessageParser.loop prof parseFirst readIfNoLen f st r
      | (.io st e, r) => (.io st e, r)
      | (.perr e, r) => (.perr e, r)
      | (.panic, r) => (.panic, r)
      | (.diverge, r) => (.diverge, r)
    | .headers t p =>
      match headersState prof t p readIfNoLen r with
      | (.done st, r) => MessageParser.loop prof parseFirst readIfNoLen f st r
      | (.io st e, r) => (.io st e, r)
      | (.perr e, r) => (.perr e, r)
      | (.panic, r) => (.panic, r)
      | (.diverge, r) => (.diverge, r)
    | .body t hs p =>
      match bodyState prof t hs p r with
      | (.done st, r) => MessageParser.loop prof parseFirst readIfNoLen f st r
      | (.io st e, r) => (.io st e, r)
      | (.perr e, r) => (.perr e, r)
      | (.panic, r) => (.panic, r)
      | (.diverge, r) => (.diverge, r)

end

/-- `parse_first_line` of requests, request.rs 56-73. Whatever follows a third space is ignored. -/
def parseRequestLine (line : Bytes) : Except ParsingError (Method × Bytes) :=
  match splitByte SP line with
  | m :: uri :: v :: _ =>
    if versionSupported v = false then .error .invalidHttpVersion
    else match Method.tryFromStr m with
      | some m => .ok (m, uri)
      | none => .error .unrecognizedMethod
  | _ => .error .badSyntax

/-- `parse_first_line` and `parse_status` of responses, response.rs 51-68. -/
def parseStatusLine (line : Bytes) : Except ParsingError Status :=
  match splitByte SP line with
  | v :: code :: _ =>
    if versionSupported v = false then .error .invalidHttpVersion
    else match parseUnsigned 10 u16Bound code with
      | none => .error .invalidStatusCode
      | some c =>
        match Status.fromCode c with
        | some s => .ok s
        | none => .error .invalidStatusCode
  | _ => .error .badSyntax

/-- `RequestParser`, request.rs 13. -/
abbrev RequestParser := MsgState (Method × Bytes)

/-- `RequestParser::new`, request.rs 17-19. -/
def RequestParser.new : RequestParser := .firstLine []

/-- `RequestParser::has_data`, request.rs 22-24. -/
def RequestParser.hasData : RequestParser → Bool
  | .firstLine line => 0 < line.length
  | _ => true

/-- `RequestParser::parse`, request.rs 27-34. -/
def RequestParser.parse (prof : Profile) (p : RequestParser) (r : R) :
    Out RequestParser Request × R :=
  match MessageParser.loop prof parseRequestLine false 5 p r with
  | (o, r) => (o.bind id fun ((method, uri), headers, body) => .done ⟨uri, method, headers, body⟩, r)

/-- `ResponseParser`, response.rs 13. -/
abbrev ResponseParser := MsgState Status

/-- `ResponseParser::new`, response.rs 17-19. -/
def ResponseParser.new : ResponseParser := .firstLine []

/-- `ResponseParser::parse`, response.rs 22-29. -/
def ResponseParser.parse (prof : Profile) (p : ResponseParser) (r : R) :
    Out ResponseParser Response × R :=
  match MessageParser.loop prof parseStatusLine true 5 p r with
  | (o, r) => (o.bind id fun (status, headers, body) => .done ⟨status, headers, body⟩, r)

end Verif
