import Verif.Proofs.Calls
import Verif.Props.Stream

/-!
C03, C04, C05, C11: whole requests and responses against the grammar.
-/

namespace Verif

/-- Some reader that will receive the given atoms. -/
def Rd.sample (evs : List Ev) : Rd := Rd.fresh 4096 (by decide) id evs

/-- For every list of atoms there is a stream that delivers them, so theorems about all streams with
given atoms ahead are not vacuous. -/
theorem Rd.exists_ahead (as : List Atom) : ∃ r : Rd, r.Ahead as := by
  suffices ∃ evs : List Ev, evs.flatMap Ev.atoms = as by
    obtain ⟨evs, h⟩ := this
    exact ⟨Rd.sample evs, rfl, h⟩
  induction as with
  | nil => exact ⟨[], rfl⟩
  | cons a as ih =>
    obtain ⟨evs, h⟩ := ih
    cases a with
    | byte b => exact ⟨.data [b] :: evs, by simp [Ev.atoms, h]⟩
    | eof => exact ⟨.data [] :: evs, by simp [Ev.atoms, h]⟩
    | err e => exact ⟨.err e :: evs, by simp [Ev.atoms, h]⟩

/-! ## C03 -/

/-- C03 is false as stated: text after the version is accepted and ignored, so the first line need not be
method, target and version only. -/
theorem C03_ignored_text_false (prof : Profile) : ∃ (w : Bytes) (q : Request),
    (∀ r : Rd, r.Ahead (w.map .byte) → ∃ r', RequestParser.parse prof .new r = (.done q, r') ∧ r'.Ahead []) ∧
    ∀ line rest, w = line ++ CRLF ++ rest → LF ∉ line → ∀ m u, ¬ StrictRequestLine m u line := by
  refine ⟨b!"GET / HTTP/1.1 garbage\r\n\r\n", ⟨b!"/", .get, [], []⟩, fun r hr => requestParse_of hr
    (by rcases prof with ⟨_ | _⟩ <;> decide +kernel), ?_⟩
  intro line rest he hl m u hs
  have := (line_unique (l := b!"GET / HTTP/1.1 garbage") (a := b!"\r\n") (by decide) hl he).1
  subst this
  obtain ⟨v, hv, hu, he⟩ := hs
  have h3 := congrArg (splitByte SP) he
  have h4 : splitByte SP (m.text ++ [SP] ++ u ++ [SP] ++ v) = [m.text, u, v] := by
    have : m.text ++ [SP] ++ u ++ [SP] ++ v = m.text ++ SP :: (u ++ SP :: v) := by simp
    rw [this, splitByte_more (method_noSp m), splitByte_more hu, splitByte_last (version_noSp hv)]
  rw [h4, show splitByte SP b!"GET / HTTP/1.1 garbage" = [b!"GET", b!"/", b!"HTTP/1.1", b!"garbage"] by decide] at h3
  simp at h3

/-- C03 is false when reading pauses: bytes that are not UTF-8 are silently dropped when a pause follows
them. Here `GET /secret` and a byte that is no UTF-8, then a pause, then `GET / HTTP/1.1` are accepted as a
request for `/`, although no text starting with the first twelve bytes is a request. -/
theorem C03_lost_bytes_false (prof : Profile) : ∃ (w : Bytes) (q : Request),
    (∀ r : Rd, r.Ahead (w.map .byte ++ .err .wouldBlock :: b!"GET / HTTP/1.1\r\n\r\n".map .byte) →
      ∃ r', Calls (RequestParser.parse prof) .new r (.done q) r' ∧ r'.Ahead []) ∧
    ∀ q' x, ¬ RequestText (w ++ x) q' := by
  refine ⟨b!"GET /secret" ++ [0xFF], ⟨b!"/", .get, [], []⟩, ?_, ?_⟩
  · intro r hr
    exact calls_of (requestParse_abs prof) 1 hr (by rcases prof with ⟨_ | _⟩ <;> decide +kernel)
  · rintro q' x ⟨line, fs, f, bw, -, hm, -⟩
    have hw := hm.wire
    have hu := hm.lineOk.utf8
    have : ∃ t, line = b!"GET /secret" ++ [0xFF] ++ t := by
      simp only [List.append_assoc line] at hw
      rcases List.append_eq_append_iff.1 hw with ⟨t, h1, -⟩ | ⟨t, h1, h2⟩
      · exact ⟨t, h1⟩
      · exfalso
        cases t with
        | nil =>
          rw [List.append_nil] at h1
          rw [← h1] at hu
          exact absurd hu (by decide)
        | cons c t =>
          have hc : c = CR := by
            have := congrArg List.head? h2; simpa [CRLF] using this.symm
          have hmem : CR ∈ b!"GET /secret" ++ [0xFF] := by rw [h1, hc]; simp
          exact absurd hmem (by decide)
    obtain ⟨t, ht⟩ := this
    rw [ht] at hu
    rw [utf8Valid, List.foldl_append, show List.foldl U8.step .start (b!"GET /secret" ++ [0xFF]) = .bad by decide,
      foldl_bad] at hu
    exact absurd hu (by decide)

/-- C03 without pauses (partial: the request line may carry ignored text after the version, and all is
read in one call). The bytes consumed are a request of the grammar, and method, target, headers and body
are those in the bytes. -/
theorem C03_single_call_partial {prof : Profile} {r r' : Rd} {q : Request} (hl : r.lims = [])
    (h : RequestParser.parse prof .new r = (.done q, r')) :
    ∃ pre, r.src.atoms = pre ++ r'.src.atoms ∧ Quiet pre ∧ RequestText (bytesOf pre) q := by
  obtain ⟨pre, line, fs, f, bw, h1, h2, -, h4, h5, h6, -⟩ := requestOne_done h hl
  exact ⟨pre, h1, h2, line, fs, f, bw, h4, h5, h6⟩

/-- C03 with pauses (partial: of each call, the bytes after the last line end are lost if they are not
UTF-8). The bytes that were not lost are a request of the grammar. -/
theorem C03_resumed_partial {prof : Profile} {r r' : Rd} {q : Request} (hl : r.lims = [])
    (h : Calls (RequestParser.parse prof) .new r (.done q) r') :
    ∃ parts : List Part, r.src.atoms = parts.flatMap Part.taken ++ r'.src.atoms ∧
      RequestText (parts.flatMap Part.kept) q := by
  obtain ⟨ps, line, fs, f, bw, h1, -, h4, h5, h6, -⟩ := requestCalls_done h hl
  exact ⟨ps, h1, line, fs, f, bw, h4, h5, h6⟩

/-- C03 with pauses, all bytes ASCII: the bytes consumed are a request of the grammar (partial: the
request line may carry ignored text, and the bytes must be ASCII). -/
theorem C03_ascii_partial {prof : Profile} {r r' : Rd} {q : Request} (hl : r.lims = [])
    (ha : ∀ c ∈ bytesOf r.src.atoms, c < 128)
    (h : Calls (RequestParser.parse prof) .new r (.done q) r') :
    ∃ pre, r.src.atoms = pre ++ r'.src.atoms ∧ RequestText (bytesOf pre) q := by
  obtain ⟨ps, line, fs, f, bw, h1, -, h4, h5, h6, -⟩ := requestCalls_done h hl
  refine ⟨taken ps, h1, line, fs, f, bw, h4, ?_, h6⟩
  rw [← bytesOf_taken_ascii]
  · exact h5
  · intro c hc
    exact ha c (by rw [h1, bytesOf_append]; simp [hc])

/-- The hypotheses of the theorems above can be met: a request read in one call and in two. -/
example : ((RequestParser.parse ⟨true⟩ .new
      (Rd.sample [.data b!"GET /a HTTP/1.1\r\nA: b\r\n\r\nrest"])).1 =
    .done ⟨b!"/a", .get, HeaderMap.fromPairs [(Header.ofStr b!"a", b!"b")], []⟩) := by decide +kernel

example : ∃ r', Calls (RequestParser.parse ⟨true⟩) .new
    (Rd.sample [.data b!"GET /a HT", .err .wouldBlock, .data b!"TP/1.1\r\nA: b\r\n\r\n"])
    (.done ⟨b!"/a", .get, HeaderMap.fromPairs [(Header.ofStr b!"a", b!"b")], []⟩) r' ∧ r'.Ahead [] :=
  calls_of (requestParse_abs _) 1 (as := b!"GET /a HT".map .byte ++ .err .wouldBlock ::
    b!"TP/1.1\r\nA: b\r\n\r\n".map .byte) ⟨rfl, rfl⟩ (by decide +kernel)

/-- The grammar leaves no choice: the same bytes are never two different requests. -/
theorem C03_reading_unique {w : Bytes} {q q' : Request} (h : RequestText w q) (h' : RequestText w q') : q = q' :=
  (request_unique (a := []) (a' := []) h h' rfl).2

/-! ## C04 -/

/-- C04: every request within the limits of one call is accepted, reported exactly, and everything after
it is left unread. -/
theorem C04_request_accepted (prof : Profile) {w : Bytes} {q : Request} (h : FittingRequest w q) {r : Rd}
    {rest : List Atom} (hr : r.Ahead (w.map .byte ++ rest)) :
    ∃ r', RequestParser.parse prof .new r = (.done q, r') ∧ r'.Ahead rest := by
  obtain ⟨line, fs, f, bw, hl, hm, hh, hf⟩ := h
  have hne : f ≠ .untilEof := hm.framing.request_framing
  exact requestParse_of hr (request_accept prof hl hm hf hh (by simp [Ended, hne]))

/-- C04: the limits are exact. Pure bytes are accepted by one call if and only if they start with a
request within the limits. -/
theorem C04_request_accepted_iff (prof : Profile) {w : Bytes} {q : Request} {r : Rd} {rest : List Atom}
    (hr : r.Ahead (w.map .byte ++ rest)) :
    (∃ r', RequestParser.parse prof .new r = (.done q, r') ∧ r'.Ahead rest) ↔ FittingRequest w q := by
  refine ⟨?_, fun h => C04_request_accepted prof h hr⟩
  rintro ⟨r', h, hr'⟩
  obtain ⟨pre, line, fs, f, bw, h1, h2, -, h4, h5, h6, h7⟩ := requestOne_done h hr.1
  rw [hr.2, hr'.2] at h1
  have := List.append_cancel_right h1
  rw [← this, bytesOf_map] at h5
  exact ⟨line, fs, f, bw, h4, h5, h6, h7.1 rfl⟩

example : FittingRequest b!"POST /x HTTP/1.0\r\nContent-Length: 2\r\n\r\nhi"
    ⟨b!"/x", .post, HeaderMap.fromPairs [(Header.contentLength, b!"2")], b!"hi"⟩ :=
  fitting_of (prof := ⟨true⟩) (by decide +kernel)

example : (Rd.sample [.data b!"GET /", .data b!" HTTP/1.1\r\n\r\n", .data []]).Ahead
    (b!"GET / HTTP/1.1\r\n\r\n".map .byte ++ [.eof]) := ⟨rfl, rfl⟩

/-- C04 for responses: framed by a length or chunks, whatever follows; framed by the end of stream, if
that follows. -/
theorem C04_response_accepted (prof : Profile) {w : Bytes} {f : Framing} {q : Response} (h : FittingResponse w f q)
    {r : Rd} {rest : List Atom} (hr : r.Ahead (w.map .byte ++ if f = .untilEof then .eof :: rest else rest)) :
    ∃ r', ResponseParser.parse prof .new r = (.done q, r') ∧ r'.Ahead rest := by
  obtain ⟨line, fs, bw, hl, hm, hh, hf⟩ := h
  refine responseParse_of hr (response_accept prof hl hm hf hh ?_)
  by_cases he : f = .untilEof <;> simp [Ended, he]

/-! ## C05 -/

/-- C05: an accepted request consumed exactly its own bytes (and interruptions between them), and the
result is the same whatever follows these. -/
theorem C05_exact_consumption {prof : Profile} {r r' : Rd} {q : Request} (hl : r.lims = [])
    (h : RequestParser.parse prof .new r = (.done q, r')) :
    ∃ pre, r.src.atoms = pre ++ r'.src.atoms ∧ Quiet pre ∧ RequestText (bytesOf pre) q ∧
      ∀ (r₂ : Rd) (rest : List Atom), r₂.Ahead (pre ++ rest) →
        ∃ r₂', RequestParser.parse prof .new r₂ = (.done q, r₂') ∧ r₂'.Ahead rest := by
  obtain ⟨pre, line, fs, f, bw, h1, h2, h3, h4, h5, h6, h7⟩ := requestOne_done h hl
  refine ⟨pre, h1, h2, ⟨line, fs, f, bw, h4, h5, h6⟩, ?_⟩
  intro r₂ rest hr₂
  have ha := requestParse_ahead (prof := prof) (p := .new) (Rd.ahead_self hl)
  rw [h] at ha
  obtain ⟨pre', e1, e2⟩ := request_local prof .new _ _ _ _ ha
  have e3 : pre' = pre := by
    simp only [Rd.abs] at e1
    rw [h1] at e1
    exact (List.append_cancel_right e1).symm
  subst e3
  have e4 := e2 rest
  simp only [Rd.abs, h3] at e4
  exact requestParse_of hr₂ e4

example : (requestSession ⟨true⟩ 3 .new (Rd.sample [.data b!"GET /a HTTP/1.1\r\n\r\nGET /b HT",
      .data b!"TP/1.1\r\n\r\n"])) =
    [.done ⟨b!"/a", .get, [], []⟩, .done ⟨b!"/b", .get, [], []⟩, .io .new .wouldBlock] := by decide +kernel

/-- C05: requests within the limits that follow each other are delivered one after the other, whatever
comes after them. -/
theorem C05_pipelined (prof : Profile) (ms : List (Bytes × Request)) (h : ∀ m ∈ ms, FittingRequest m.1 m.2) {r : Rd}
    {rest : List Atom} (hr : r.Ahead ((ms.flatMap Prod.fst).map .byte ++ rest)) :
    ∃ r', r'.Ahead rest ∧ ∀ n, requestSession prof (ms.length + n) .new r =
      ms.map (fun m => .done m.2) ++ requestSession prof n .new r' := by
  induction ms generalizing r with
  | nil => exact ⟨r, by simpa using hr, by simp⟩
  | cons m ms ih =>
    have hr' : r.Ahead (m.1.map .byte ++ ((ms.flatMap Prod.fst).map .byte ++ rest)) := by simpa using hr
    obtain ⟨r1, h1, h2⟩ := C04_request_accepted prof (h m (by simp)) hr'
    obtain ⟨r', h3, h4⟩ := ih (fun x hx => h x (by simp [hx])) h2
    refine ⟨r', h3, fun n => ?_⟩
    rw [show (m :: ms).length + n = (ms.length + n) + 1 by simp; omega]
    simp only [requestSession, h1, h4, List.map_cons, List.cons_append]

/-! ## C10, C20 for whole messages -/

/-- C10: the body of every request that is accepted is delimited as its headers announce: by the length, by chunks, or there is none. -/
theorem C10_request {prof : Profile} {r r' : Rd} {q : Request} (hl : r.lims = []) (h : RequestParser.parse prof .new r = (.done q, r')) :
    ∃ pre line fs f bw, r.src.atoms = pre ++ r'.src.atoms ∧ Quiet pre ∧ LF ∉ line ∧ (∀ x ∈ fs, FieldText x) ∧
      bytesOf pre = line ++ CRLF ++ fieldLines fs ++ CRLF ++ bw ∧ Announces (fieldMap fs) false (.ok f) ∧ BodyText f bw q.body := by
  obtain ⟨pre, line, fs, f, bw, h1, h2, -, -, h5, -, -⟩ := requestOne_done h hl
  exact ⟨pre, line, fs, f, bw, h1, h2, h5.lineOk.noLf, h5.fields, h5.wire, h5.framing, h5.bodyOk⟩

/-- C10: likewise for responses, which can also go on to the end of the stream. -/
theorem C10_response {prof : Profile} {r r' : Rd} {q : Response} (hl : r.lims = []) (h : ResponseParser.parse prof .new r = (.done q, r')) :
    ∃ pre line fs f bw, r.src.atoms = pre ++ r'.src.atoms ∧ (f ≠ .untilEof → Quiet pre) ∧ LF ∉ line ∧ (∀ x ∈ fs, FieldText x) ∧
      bytesOf pre = line ++ CRLF ++ fieldLines fs ++ CRLF ++ bw ∧ Announces (fieldMap fs) true (.ok f) ∧ BodyText f bw q.body := by
  obtain ⟨pre, line, fs, f, bw, h1, h2, -, -, h5, -, -⟩ := responseOne_done h hl
  refine ⟨pre, line, fs, f, bw, h1, fun hf => ?_, h5.lineOk.noLf, h5.fields, h5.wire, h5.framing, h5.bodyOk⟩
  simpa [Ends, hf] using h2

/-- C10: the fields that count are those called Content-Length and Transfer-Encoding, in any case. -/
theorem C10_names (n : Bytes) : (Header.ofStr n = Header.contentLength ↔ SameText n b!"Content-Length") ∧
    (Header.ofStr n = Header.transferEncoding ↔ SameText n b!"Transfer-Encoding") := by
  obtain ⟨-, -, -, h1, -, h2⟩ := C18_predefined_headers
  rw [← h1, ← h2]
  exact ⟨C18_header_equal_iff_same_text .., C18_header_equal_iff_same_text ..⟩

theorem bodyParser_refuses {ps : List (Header × Bytes)} {b : Bool} {e : ParsingError} (h : Announces ps b (.error e)) :
    BodyParser.new (HeaderMap.fromPairs ps) b = .error e := by
  obtain ⟨o, h1, h2⟩ := C10_framing ps b
  rw [h2, C10_framing_unique h1 h]
  rfl

theorem message_refuse {T : Type} (prof : Profile) {pf : Bytes → Except ParsingError T} {b : Bool} {t : T} {line : Bytes} {fs : List (Bytes × Bytes)} {e : ParsingError}
    (hpf : pf line = .ok t) (hl : LineText line) (hf : ∀ x ∈ fs, FieldText x) (hlen : (fieldLines fs).length + 2 ≤ 4096) (ha : Announces (fieldMap fs) b (.error e))
    (as : List Atom) :
    MessageParser.loop prof pf b 5 (.firstLine []) (⟨[], (line ++ CRLF).map .byte ++ ((fieldLines fs ++ CRLF).map .byte ++ as)⟩ : AR) = (.perr e, ⟨[], as⟩) := by
  rw [messageLoop_step _ _ _ _ _ _ rfl]
  simp only [msgStep, firstLineState]
  rw [line_accept prof hl (by simp)]
  simp only [Out.bind, hpf]
  rw [messageLoop_step _ _ _ _ _ _ rfl]
  simp only [msgStep, headersState]
  rw [decN_nil, headers_accept prof hf hlen]
  simp only [Out.bind, bodyParser_refuses ha]

/-- C10: a request whose Content-Length is no number or too large is refused with the documented error, after the header section, and nothing more is read. -/
theorem C10_request_refused (prof : Profile) {m : Method} {u line : Bytes} {fs : List (Bytes × Bytes)} {e : ParsingError} (hr : RequestLine m u line) (hl : LineText line)
    (hf : ∀ x ∈ fs, FieldText x) (hlen : (fieldLines fs).length + 2 ≤ 4096) (ha : Announces (fieldMap fs) false (.error e)) {r : Rd} {rest : List Atom}
    (h : r.Ahead ((line ++ CRLF ++ fieldLines fs ++ CRLF).map .byte ++ rest)) :
    ∃ r', RequestParser.parse prof .new r = (.perr e, r') ∧ r'.Ahead rest := by
  refine requestParse_of h ?_
  unfold RequestParser.parse RequestParser.new
  rw [show (line ++ CRLF ++ fieldLines fs ++ CRLF).map Atom.byte ++ rest = (line ++ CRLF).map .byte ++ ((fieldLines fs ++ CRLF).map .byte ++ rest) by simp,
    message_refuse prof (requestLine_iff.2 hr) hl hf hlen ha]
  rfl

/-- C10: likewise for responses. -/
theorem C10_response_refused (prof : Profile) {st : Status} {line : Bytes} {fs : List (Bytes × Bytes)} {e : ParsingError} (hr : StatusLine st line) (hl : LineText line)
    (hf : ∀ x ∈ fs, FieldText x) (hlen : (fieldLines fs).length + 2 ≤ 4096) (ha : Announces (fieldMap fs) true (.error e)) {r : Rd} {rest : List Atom}
    (h : r.Ahead ((line ++ CRLF ++ fieldLines fs ++ CRLF).map .byte ++ rest)) :
    ∃ r', ResponseParser.parse prof .new r = (.perr e, r') ∧ r'.Ahead rest := by
  refine responseParse_of h ?_
  unfold ResponseParser.parse ResponseParser.new
  rw [show (line ++ CRLF ++ fieldLines fs ++ CRLF).map Atom.byte ++ rest = (line ++ CRLF).map .byte ++ ((fieldLines fs ++ CRLF).map .byte ++ rest) by simp,
    message_refuse prof (statusLine_iff.2 hr) hl hf hlen ha]
  rfl

theorem message_refuse_line {T : Type} (prof : Profile) {pf : Bytes → Except ParsingError T} {b : Bool} {line : Bytes} {e : ParsingError} (hpf : pf line = .error e)
    (hl : LineText line) (as : List Atom) :
    MessageParser.loop prof pf b 5 (.firstLine []) (⟨[], (line ++ CRLF).map .byte ++ as⟩ : AR) = (.perr e, ⟨[], as⟩) := by
  rw [messageLoop_step _ _ _ _ _ _ rfl]
  simp only [msgStep, firstLineState]
  rw [line_accept prof hl (by simp)]
  simp only [Out.bind, hpf, decN_nil]

/-- C20: a request with a bad first line is refused with the documented error at the end of the line, whatever follows. -/
theorem C20_request_refused (prof : Profile) {line : Bytes} {fs : List Bytes} {e : ParsingError} (hl : LineText line) (hf : Fields line fs)
    (ho : RequestLineOutcome fs (.error e)) {r : Rd} {rest : List Atom} (h : r.Ahead ((line ++ CRLF).map .byte ++ rest)) :
    ∃ r', RequestParser.parse prof .new r = (.perr e, r') ∧ r'.Ahead rest := by
  refine requestParse_of h ?_
  unfold RequestParser.parse RequestParser.new
  rw [message_refuse_line prof (C20_request_outcome_unique (C20_request_line line hf) ho) hl]
  rfl

/-- C20: likewise for responses. -/
theorem C20_response_refused (prof : Profile) {line : Bytes} {fs : List Bytes} {e : ParsingError} (hl : LineText line) (hf : Fields line fs)
    (ho : StatusLineOutcome fs (.error e)) {r : Rd} {rest : List Atom} (h : r.Ahead ((line ++ CRLF).map .byte ++ rest)) :
    ∃ r', ResponseParser.parse prof .new r = (.perr e, r') ∧ r'.Ahead rest := by
  refine responseParse_of h ?_
  unfold ResponseParser.parse ResponseParser.new
  rw [message_refuse_line prof (C20_status_outcome_unique (C20_status_line line hf) ho) hl]
  rfl

/-- A length that is too large, and one that is no number. -/
example : Announces (fieldMap [(b!"Content-Length", b!"4000000")]) false (.error .contentLengthTooLarge) ∧
    RequestLineOutcome [b!"GET", b!"/", b!"HTTP/2"] (.error .invalidHttpVersion) :=
  ⟨.tooLarge (v := b!"4000000") (n := 4000000) (by decide +kernel) ((parseUnsigned_iff (radix := 10) (bound := 2 ^ 64) (by omega)).1 (by decide +kernel)).1 (by decide) (by decide), .badVersion (by decide) (by decide)⟩

/-! ## C11 -/

/-- C11 is false when reading pauses inside characters: a request with a chunked body, truncated before
its body, is delivered, because the header line announcing the body is lost when pauses fall before and
after the last byte of a character in it. -/
theorem C11_lost_header_false (prof : Profile) : ∃ (a b c x : Bytes) (q q' : Request),
    RequestText (a ++ b ++ c ++ x) q ∧ x ≠ [] ∧
    ∀ r : Rd, r.Ahead (a.map .byte ++ .err .wouldBlock :: b.map .byte ++ .err .wouldBlock :: c.map .byte ++ [.eof]) →
      ∃ r', Calls (RequestParser.parse prof) .new r (.done q') r' ∧ r'.Ahead [.eof] := by
  refine ⟨b!"POST / HTTP/1.1\r\ntransfer-encoding: chunked " ++ [0xC3], [0xA9], b!"a: b\r\n\r\n", b!"1\r\nx\r\n0\r\n\r\n",
    ⟨b!"/", .post, HeaderMap.fromPairs [(Header.transferEncoding, b!"chunked " ++ [0xC3, 0xA9] ++ b!"a: b")], b!"x"⟩,
    ⟨b!"/", .post, HeaderMap.fromPairs [(Header.ofStr b!"a", b!"b")], []⟩, ?_, by decide, ?_⟩
  · exact (fitting_of (prof := prof) (by rcases prof with ⟨_ | _⟩ <;> decide +kernel)).text
  · intro r hr
    exact calls_of (requestParse_abs prof) 2 hr (by rcases prof with ⟨_ | _⟩ <;> decide +kernel)

/-- C11 in one call (partial: no pauses): if only a proper prefix of a request arrives, with ends of stream
and errors anywhere, nothing is delivered. -/
theorem C11_single_call_partial {prof : Profile} {w : Bytes} {q : Request} (h : RequestText w q) {r : Rd}
    {as : List Atom} (hr : r.Ahead as) (hp : bytesOf as <+: w) (hne : bytesOf as ≠ w) (q' : Request) (r' : Rd) :
    RequestParser.parse prof .new r ≠ (.done q', r') := by
  intro hd
  obtain ⟨pre, line, fs, f, bw, h1, -, -, h4, h5, h6, -⟩ := requestOne_done hd hr.1
  obtain ⟨x, hx⟩ := hp
  rw [hr.2] at h1
  rw [h1, bytesOf_append] at hx
  have := request_unique (a := bytesOf r'.src.atoms ++ x) (a' := []) ⟨line, fs, f, bw, h4, h5, h6⟩ h (by simpa using hx)
  rw [h1, bytesOf_append] at hne
  have hl := congrArg List.length this.1
  have hl2 := congrArg List.length hx
  simp only [List.length_append] at hl2
  have hz : (bytesOf r'.src.atoms) = [] := List.length_eq_zero_iff.1 (by omega)
  exact hne (by rw [hz, List.append_nil, this.1])

example : RequestText b!"GET / HTTP/1.1\r\n\r\n" ⟨b!"/", .get, [], []⟩ ∧
    (Rd.sample [.data b!"GET / HTTP/1.1\r\n\r", .data []]).Ahead (b!"GET / HTTP/1.1\r\n\r".map .byte ++ [.eof]) ∧
    bytesOf (b!"GET / HTTP/1.1\r\n\r".map .byte ++ [.eof]) <+: b!"GET / HTTP/1.1\r\n\r\n" :=
  ⟨(fitting_of (prof := ⟨true⟩) (by decide +kernel)).text, ⟨rfl, rfl⟩, [LF], by decide⟩

/-- C11 with pauses anywhere (partial: the bytes received must be ASCII). -/
theorem C11_ascii_partial {prof : Profile} {w : Bytes} {q : Request} (h : RequestText w q) {r : Rd}
    {as : List Atom} (hr : r.Ahead as) (ha : ∀ c ∈ bytesOf as, c < 128) (hp : bytesOf as <+: w) (hne : bytesOf as ≠ w)
    (q' : Request) (r' : Rd) : ¬ Calls (RequestParser.parse prof) .new r (.done q') r' := by
  intro hd
  obtain ⟨pre, h1, ht⟩ := C03_ascii_partial hr.1 (by rw [hr.2]; exact ha) hd
  obtain ⟨x, hx⟩ := hp
  rw [hr.2] at h1
  rw [h1, bytesOf_append] at hx
  have := request_unique (a := bytesOf r'.src.atoms ++ x) (a' := []) ht h (by simpa using hx)
  rw [h1, bytesOf_append] at hne
  have hl := congrArg List.length this.1
  have hl2 := congrArg List.length hx
  simp only [List.length_append] at hl2
  have hz : (bytesOf r'.src.atoms) = [] := List.length_eq_zero_iff.1 (by omega)
  exact hne (by rw [hz, List.append_nil, this.1])

end Verif
