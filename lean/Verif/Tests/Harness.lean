import Verif.Model.Parse
import Verif.Model.Server

/-!
The test code of the project itself: the mock streams of `src/util/mock.rs` and the helpers of
`src/parse/test_util.rs`. The other files of this directory run the unit tests of the project on the model. The files
`Line`, `Headers`, `Body`, `Message`, `Request`, `Response` and `Server` are written by `tools/mktests.py` from the
test modules of the sources; the rest is translated by hand.

A test that passes in the program and fails here would show that the model is not the program. The program cannot be
run where this was written, so that its tests do pass is taken on trust. `cargo test` builds with overflow checks, so this is the profile used.
-/

namespace Verif.Tests

/-- `cargo test` builds without optimisation, and so with overflow checks. -/
def debug : Profile := ⟨true⟩

/-- `TestParseResult`, test_util.rs 11-15. -/
inductive Expect (T : Type)
  | value (v : T)
  | ioErr (e : IoError)
  | parseErr (e : ParsingError)

/-- `BufReader::new` over a `MockReader`, mock.rs 7-44, with `return_would_block_when_empty`: a script of what its
`read` finds is what it is. The way `Vec` grows is chosen arbitrarily; no parse depends on it (C01). -/
def reader (data : List Bytes) : Rd :=
  ⟨[], { cap := 8192, capPos := by decide, offer := fun _ => 31, buf := [], evs := data.map .data }⟩

/-- `reader.get_mut().data.extend(new_data)`, test_util.rs 35-55. -/
def extend (r : Rd) (new : List Bytes) : Rd :=
  { r with src := { r.src with evs := r.src.evs ++ new.map .data } }

/-- A `MockReader` without `return_would_block_when_empty` says that the stream has ended each time it is read once
it is empty; a parse stops at the first one. -/
def ending (data : List Bytes) : Rd := reader (data ++ [[]])

/-- An `EndlessMockReader`, mock.rs 46-75, as far as it is read by tests of the limits on lines and headers (4096
bytes are never exceeded): 1100 rounds of the sequence, each read in one piece. -/
def endlessly (data : List Bytes) (sequence : Bytes) : Rd := reader (data ++ List.replicate 1100 sequence)

section

variable {σ T : Type} (same : T → T → Bool)

/-- `to_parse_test_result` and `assert_results_equal`, test_util.rs 79-92; a panic fails the test. -/
def agrees : Out σ T → Expect T → Bool
  | .done v, .value v' => same v v'
  | .io _ e, .ioErr e' => e = e'
  | .perr e, .parseErr e' => e = e'
  | _, _ => false

/-- The loop of `test_blocking`, test_util.rs 35-55. -/
def blockingFrom (parse : σ → Rd → Out σ T × Rd) : σ → Rd → List (List Bytes × Expect T) → Bool
  | _, _, [] => true
  | p, r, (new, expected) :: tests =>
    match parse p (extend r new) with
    | (.io p e, r) => agrees same (.io p e) expected && blockingFrom parse p r tests
    | (o, _) => agrees same o expected && tests.isEmpty

/-- `test_blocking`, test_util.rs 35-55. -/
def blocking (parse : σ → Rd → Out σ T × Rd) (p : σ) (tests : List (List Bytes × Expect T)) : Bool :=
  blockingFrom same parse p (reader []) tests

/-- `test_ignore_new_parser`, test_util.rs 72-77. -/
def once (parse : σ → Rd → Out σ T × Rd) (p : σ) (r : Rd) (expected : Expect T) : Bool :=
  agrees same (parse p r).1 expected

end

/-- `PartialEq` of `HashMap`, standard library: as many keys, and the same values at each key of the first. -/
def sameMap (m m' : HeaderMap) : Bool := m.length == m'.length && m.all fun e => m'.get e.1 == some e.2

/-- Equality of the messages of message.rs 110. -/
def sameMessage (m m' : Bytes × HeaderMap × Bytes) : Bool := m.1 == m'.1 && sameMap m.2.1 m'.2.1 && m.2.2 == m'.2.2

/-- Equality of requests, request.rs 4. -/
def sameRequest (q q' : Request) : Bool :=
  q.uri == q'.uri && q.method == q'.method && sameMap q.headers q'.headers && q.body == q'.body

/-- Equality of responses, response.rs 7. -/
def sameResponse (s s' : Response) : Bool :=
  s.status == s'.status && sameMap s.headers s'.headers && s.body == s'.body

/-- `test`, crlf_line.rs 57-68. -/
def line (tests : List (List Bytes × Expect Bytes)) : Bool := blocking (· == ·) (CrlfLineParser.parse debug) [] tests

/-- `test_read`, headers.rs 70-72. -/
def headers (tests : List (List Bytes × Expect HeaderMap)) : Bool :=
  blocking sameMap (HeadersParser.parse debug) .new tests

/-- A parser of bodies that is made from headers, `BodyParser::new(..).unwrap()`. -/
def body (hs : List (Header × Bytes)) (flag : Bool) (k : BodyParser → Bool) : Bool :=
  match BodyParser.new (.fromPairs hs) flag with
  | .ok p => k p
  | .error _ => false

/-- `test_sized`, body.rs 201-204. -/
def sized (size : Nat) (tests : List (List Bytes × Expect Bytes)) : Bool :=
  body [(.ofStr b!"content-length", natDec size)] false fun p => blocking (· == ·) (BodyParser.parse debug) p tests

/-- `test_until_eof`, body.rs 206-209. -/
def untilEof (tests : List (List Bytes × Expect Bytes)) : Bool :=
  body [] true fun p => blocking (· == ·) (BodyParser.parse debug) p tests

/-- `test_chunked`, body.rs 211-214. -/
def chunked (tests : List (List Bytes × Expect Bytes)) : Bool :=
  body [(.ofStr b!"transfer-encoding", b!"chunked")] false fun p =>
    blocking (· == ·) (BodyParser.parse debug) p tests

/-- `get_message_deframer`, message.rs 113-115: the first line is not parsed further. -/
def messageParse {R : Type} [Reader R] (flag : Bool) (st : MsgState Bytes) (r : R) :
    Out (MsgState Bytes) (Bytes × HeaderMap × Bytes) × R :=
  MessageParser.loop debug Except.ok flag 5 st r

/-- `test_with_eof`, message.rs 117-119. -/
def messageEof (input : List Bytes) (flag : Bool) (expected : Expect (Bytes × HeaderMap × Bytes)) : Bool :=
  once sameMessage (messageParse flag) (.firstLine []) (ending input) expected

/-- `test_endless`, message.rs 121-123. -/
def messageEndless (data : List Bytes) (endless : Bytes) (flag : Bool) (expected : Expect (Bytes × HeaderMap × Bytes)) :
    Bool :=
  once sameMessage (messageParse flag) (.firstLine []) (endlessly data endless) expected

/-- `test_blocking`, message.rs 125-127. -/
def messageBlocking (flag : Bool) (tests : List (List Bytes × Expect (Bytes × HeaderMap × Bytes))) : Bool :=
  blocking sameMessage (messageParse flag) (.firstLine []) tests

/-- `test_with_eof`, request.rs 91-93. -/
def requestEof (data : List Bytes) (expected : Expect Request) : Bool :=
  once sameRequest (RequestParser.parse debug) .new (ending data) expected

/-- `test_with_eof`, response.rs 83-85. -/
def responseEof (data : List Bytes) (expected : Expect Response) : Bool :=
  once sameResponse (ResponseParser.parse debug) .new (ending data) expected

/-- The router of `test_respond_to_requests`, server.rs 173-200: it answers with the next of the responses, and panics
if there is none. The state is the requests seen and the responses left. -/
def scripted : Router (List Request × List Response) :=
  Router.onPrefix [] b!"" fun _ q s =>
    match s.2 with
    | [] => (none, (s.1 ++ [q], []))
    | x :: xs => (some (.sendResponse x), (s.1 ++ [q], xs))

/-- `MockWriter`, mock.rs 77-98: the bytes written and not flushed, and those flushed, each write apart. -/
structure MockWriter where
  written : List Bytes
  flushed : List Bytes
  deriving DecidableEq

instance : Write MockWriter where
  write w b := (.ok b.length, { w with written := w.written ++ [b] })
  flush w := (.ok (), ⟨[], w.flushed ++ w.written⟩)
  rounds _ := 0

/-- `test_respond_to_requests`, server.rs 173-200. -/
def respond (input : List Bytes) (responses : List Response) (requests : List Request) (output : Bytes) : Bool :=
  match respondToRequests debug scripted (Conn.new (ending input) (⟨[], []⟩ : MockWriter)) ([], responses) with
  | (.keep, c, s) | (.drop, c, s) =>
    c.writer.flushed.flatten == output && s.1.length == requests.length &&
      (s.1.zip requests).all fun x => sameRequest x.1 x.2
  | _ => false

/-- `test_respond_to_requests_with_last_response`, server.rs 206-224. -/
def respondLast (input : List Bytes) (requests : List Request) (last : Bytes) : Bool :=
  let responses : List Response := (List.range requests.length).map fun code => ⟨⟨code, []⟩, [], []⟩
  respond input responses requests (responses.flatMap (fun x => (writeResponse ([] : Bytes) x).2) ++ last)

/-- `test_respond_to_requests_no_bad`, server.rs 202-204. -/
def respondNoBad (input : List Bytes) (requests : List Request) : Bool := respondLast input requests []

end Verif.Tests
