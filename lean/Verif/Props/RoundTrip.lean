import Verif.Proofs.RoundTrip
import Verif.Props.Message
import Verif.Props.Writing
import Verif.Props.Serving

/-!
C06, C07, C49 and C50: what one side writes, the other side reads back.
-/

namespace Verif

/-! ## C06 -/

theorem Request.Sendable.perm {q : Request} (h : q.Sendable) {m : HeaderMap} (hm : q.headers.Perm m) :
    ({ q with headers := m } : Request).Sendable where
  noSp := h.noSp
  noLf := h.noLf
  utf8 := h.utf8
  short := h.short
  headers := h.headers.perm hm
  body := h.body.imp (fun h => h.perm hm) fun h => ⟨h.1.perm hm, h.2⟩

theorem method_text (m : Method) : LF ∉ m.text ∧ utf8Valid (m.text ++ [SP]) = true := by cases m <;> decide

/-- What is written for a request that can be sent is that request in the grammar. -/
theorem Request.Sendable.fitting {q : Request} (h : q.Sendable) : FittingRequest (requestBytes q) q := by
  have hline : LineText (q.method.text ++ [SP] ++ q.uri ++ [SP] ++ b!"HTTP/1.1") := by
    refine ⟨?_, ?_, ?_⟩
    · simp only [List.mem_append, not_or]
      exact ⟨⟨⟨⟨(method_text _).1, by decide⟩, h.noLf⟩, by decide⟩, by decide⟩
    · rw [List.append_assoc, List.append_assoc, utf8_append (method_text _).2, utf8_append h.utf8]
      decide
    · have := h.short
      simp only [List.length_append, List.length_singleton]
      simp; omega
  have hrl : RequestLine q.method q.uri (q.method.text ++ [SP] ++ q.uri ++ [SP] ++ b!"HTTP/1.1") :=
    ⟨b!"HTTP/1.1", [], .inr rfl, h.noSp, .inl rfl, by simp⟩
  have hsz := h.headers.size
  rw [← HeaderMap.fieldLines_fields] at hsz
  have hwire : requestBytes q = q.method.text ++ [SP] ++ q.uri ++ [SP] ++ b!"HTTP/1.1" ++ CRLF ++
      fieldLines q.headers.fields ++ CRLF ++ q.body := by
    rw [HeaderMap.fieldLines_fields]
    simp [requestBytes, SP, CRLF]
  rcases h.body with hb | ⟨hb, he⟩
  · exact ⟨_, q.headers.fields, .length q.body.length, q.body, hrl,
      ⟨hline, h.headers.fieldText, h.headers.announces_sized hb _, ⟨rfl, rfl⟩, hwire⟩,
      h.headers.fromPairs.symm, hsz, hb.choose_spec.2.2⟩
  · refine ⟨_, q.headers.fields, .noBody, [], hrl,
      ⟨hline, h.headers.fieldText, h.headers.announces_unframed hb _, ⟨rfl, he⟩, ?_⟩,
      h.headers.fromPairs.symm, hsz, trivial⟩
    rw [hwire, he]

/-- C06: a request written by the client, in whatever order the header map is iterated, is read back by the
server: same method, target and body, and an equal header map; whatever follows is left unread. -/
theorem C06_round_trip (prof : Profile) {q : Request} (h : q.Sendable) {m : HeaderMap} (hm : q.headers.Perm m)
    {w : Bytes} (hw : writeRequest ([] : Bytes) { q with headers := m } = (.ok, w)) {r : Rd} {rest : List Atom}
    (hr : r.Ahead (w.map .byte ++ rest)) :
    ∃ q' r', RequestParser.parse prof .new r = (.done q', r') ∧ r'.Ahead rest ∧ q'.method = q.method ∧
      q'.uri = q.uri ∧ q'.body = q.body ∧ q'.headers.WF ∧ q'.headers.Equiv q.headers := by
  rw [C39_request] at hw
  simp only [List.nil_append, Prod.mk.injEq, true_and] at hw
  subst hw
  obtain ⟨r', h1, h2⟩ := C04_request_accepted prof (h.perm hm).fitting hr
  exact ⟨_, r', h1, h2, rfl, rfl, rfl, (h.headers.perm hm).wf, fun k => (HeaderMap.get_perm hm h.headers.wf k).symm⟩

/-- C06, through the client's buffered writer: when writing succeeded, the bytes the stream was given since are
read back as the request, whatever the sizes of the writes the stream accepted. -/
theorem C06_through_writer (prof : Profile) {q : Request} (h : q.Sendable) {m : HeaderMap} (hm : q.headers.Perm m)
    {w w' : BufW} (hb : w.buf = []) (hw : writeRequest w { q with headers := m } = (.ok, w')) {new : Bytes}
    (hn : w'.sock.sent = w.sock.sent ++ new) {r : Rd} {rest : List Atom} (hr : r.Ahead (new.map .byte ++ rest)) :
    ∃ q' r', RequestParser.parse prof .new r = (.done q', r') ∧ r'.Ahead rest ∧ q'.method = q.method ∧
      q'.uri = q.uri ∧ q'.body = q.body ∧ q'.headers.WF ∧ q'.headers.Equiv q.headers := by
  have hc := C54_client_in_order w { q with headers := m }
  rw [hw] at hc
  rcases hc with ⟨-, -, h3⟩ | ⟨e, h1, -⟩
  · rw [hn, hb, List.append_nil] at h3
    have := List.append_cancel_left h3
    subst this
    exact C06_round_trip prof h hm (by rw [C39_request]; simp) hr
  · cases h1

/-- C06: nothing else comes back: if all that was written for a request is read as that request, it
satisfied the grammar and the limits. -/
theorem C06_needed (prof : Profile) {q : Request} {r r' : Rd} {rest : List Atom}
    (hr : r.Ahead ((requestBytes q).map .byte ++ rest))
    (h : RequestParser.parse prof .new r = (.done q, r')) (hr' : r'.Ahead rest) : FittingRequest (requestBytes q) q :=
  (C04_request_accepted_iff prof hr).1 ⟨r', h, hr'⟩

/-- A request that can be sent. -/
def sampleRequest : Request :=
  ⟨b!"/x?y=z", .post, [(.contentLength, [b!"2"]), (.ofStr b!"X-A", [b!"1", b!"a: b, c"])], b!"hi"⟩

theorem occurs_ascii {s : Bytes} (h : (58 : UInt8) ∉ s) : ¬ Occurs b!": " s := by
  rintro ⟨x, y, e⟩
  exact h (by rw [e]; simp)

theorem sampleRequest_sendable : sampleRequest.Sendable where
  noSp := by decide
  noLf := by decide
  utf8 := by decide
  short := by decide
  headers := by
    refine ⟨by unfold HeaderMap.WF; decide, ?_, by decide, ?_, by decide +kernel⟩
    · intro e he
      simp only [sampleRequest, List.mem_cons, List.not_mem_nil, or_false] at he
      rcases he with rfl | rfl
      · exact ⟨b!"Content-Length", by decide⟩
      · exact ⟨b!"X-A", rfl⟩
    · intro e he v hv
      refine ⟨⟨?_, ?_, ?_⟩, occurs_ascii ?_⟩ <;>
        revert v <;> revert e <;> decide +kernel
  body := .inl ⟨b!"2", ⟨[], by decide⟩, .inl (natDec_numeral 2), by decide⟩

example (prof : Profile) {r : Rd} {rest : List Atom}
    (hr : r.Ahead (b!"POST /x?y=z HTTP/1.1\r\nx-a: 1\r\nx-a: a: b, c\r\ncontent-length: 2\r\n\r\nhi".map .byte ++ rest)) :
    ∃ q' r', RequestParser.parse prof .new r = (.done q', r') ∧ r'.Ahead rest ∧ q'.method = .post ∧
      q'.uri = b!"/x?y=z" ∧ q'.body = b!"hi" ∧ q'.headers.WF ∧ q'.headers.Equiv sampleRequest.headers :=
  C06_round_trip prof sampleRequest_sendable (List.Perm.swap _ _ _)
    (w := b!"POST /x?y=z HTTP/1.1\r\nx-a: 1\r\nx-a: a: b, c\r\ncontent-length: 2\r\n\r\nhi") (by decide +kernel) hr

/-! ## C07 -/

theorem HeaderMap.Writable.status_line {s : Response} (h : s.status ∈ statusTable) :
    LineText (b!"HTTP/1.1" ++ [SP] ++ natDec s.status.code ++ (SP :: s.status.reason)) ∧
    StatusLine s.status (b!"HTTP/1.1" ++ [SP] ++ natDec s.status.code ++ (SP :: s.status.reason)) := by
  constructor
  · have : ∀ s ∈ statusTable, LF ∉ (b!"HTTP/1.1" ++ [SP] ++ natDec s.code ++ (SP :: s.reason)) ∧
        utf8Valid (b!"HTTP/1.1" ++ [SP] ++ natDec s.code ++ (SP :: s.reason)) = true ∧
        (b!"HTTP/1.1" ++ [SP] ++ natDec s.code ++ (SP :: s.reason)).length ≤ 510 := by decide +kernel
    obtain ⟨h1, h2, h3⟩ := this _ h
    exact ⟨h1, h2, h3⟩
  · exact ⟨b!"HTTP/1.1", natDec s.status.code, SP :: s.status.reason, .inr rfl, h, .inl (natDec_numeral _),
      .inr ⟨_, rfl⟩, rfl⟩

theorem response_wire (s : Response) : responseBytes s =
    b!"HTTP/1.1" ++ [SP] ++ natDec s.status.code ++ (SP :: s.status.reason) ++ CRLF ++
      fieldLines s.headers.fields ++ CRLF ++ s.body := by
  rw [HeaderMap.fieldLines_fields]
  simp [responseBytes, SP, CRLF]

theorem Response.Sendable.fitting {s : Response} (h : s.Sendable) :
    FittingResponse (responseBytes s) (.length s.body.length) s := by
  obtain ⟨h1, h2⟩ := HeaderMap.Writable.status_line h.status
  have hsz := h.headers.size
  rw [← HeaderMap.fieldLines_fields] at hsz
  exact ⟨_, s.headers.fields, s.body, h2,
    ⟨h1, h.headers.fieldText, h.headers.announces_sized h.body _, ⟨rfl, rfl⟩, response_wire s⟩,
    h.headers.fromPairs.symm, hsz, h.body.choose_spec.2.2⟩

theorem Response.SendableLast.fitting {s : Response} (h : s.SendableLast) :
    FittingResponse (responseBytes s) .untilEof s := by
  obtain ⟨h1, h2⟩ := HeaderMap.Writable.status_line h.status
  have hsz := h.headers.size
  rw [← HeaderMap.fieldLines_fields] at hsz
  exact ⟨_, s.headers.fields, s.body, h2,
    ⟨h1, h.headers.fieldText, h.headers.announces_unframed h.unframed _, rfl, response_wire s⟩,
    h.headers.fromPairs.symm, hsz, h.body⟩

/-- C07: a response written by the server, in whatever order the header map is iterated, is read back by the
client: same status and body, and an equal header map; whatever follows is left unread. -/
theorem C07_round_trip (prof : Profile) {s : Response} (h : s.Sendable) {m : HeaderMap} (hm : s.headers.Perm m)
    {w : Bytes} (hw : writeResponse ([] : Bytes) { s with headers := m } = (.ok, w)) {r : Rd} {rest : List Atom}
    (hr : r.Ahead (w.map .byte ++ rest)) :
    ∃ s' r', ResponseParser.parse prof .new r = (.done s', r') ∧ r'.Ahead rest ∧ s'.status = s.status ∧
      s'.body = s.body ∧ s'.headers.WF ∧ s'.headers.Equiv s.headers := by
  rw [C39_response] at hw
  simp only [List.nil_append, Prod.mk.injEq, true_and] at hw
  subst hw
  have hf : ({ s with headers := m } : Response).Sendable := ⟨h.status, h.headers.perm hm, h.body.perm hm⟩
  obtain ⟨r', h1, h2⟩ := C04_response_accepted prof hf.fitting (rest := rest) (by simpa using hr)
  exact ⟨_, r', h1, h2, rfl, rfl, (h.headers.perm hm).wf, fun k => (HeaderMap.get_perm hm h.headers.wf k).symm⟩

/-- C07: without a Content-Length (and without chunked coding, which the server never writes) the same holds
when the connection is closed behind the response. -/
theorem C07_closed (prof : Profile) {s : Response} (h : s.SendableLast) {m : HeaderMap} (hm : s.headers.Perm m)
    {w : Bytes} (hw : writeResponse ([] : Bytes) { s with headers := m } = (.ok, w)) {r : Rd} {rest : List Atom}
    (hr : r.Ahead (w.map .byte ++ .eof :: rest)) :
    ∃ s' r', ResponseParser.parse prof .new r = (.done s', r') ∧ r'.Ahead rest ∧ s'.status = s.status ∧
      s'.body = s.body ∧ s'.headers.WF ∧ s'.headers.Equiv s.headers := by
  rw [C39_response] at hw
  simp only [List.nil_append, Prod.mk.injEq, true_and] at hw
  subst hw
  have hf : ({ s with headers := m } : Response).SendableLast :=
    ⟨h.status, h.headers.perm hm, h.unframed.perm hm, h.body⟩
  obtain ⟨r', h1, h2⟩ := C04_response_accepted prof hf.fitting (rest := rest) (by simpa using hr)
  exact ⟨_, r', h1, h2, rfl, rfl, (h.headers.perm hm).wf, fun k => (HeaderMap.get_perm hm h.headers.wf k).symm⟩

/-- The hypotheses of the theorems above can be met: a response with two headers, written in either order, and one without
a Content-Length. -/
example (prof : Profile) {r : Rd} {rest : List Atom}
    (hr : r.Ahead (b!"HTTP/1.1 201 CREATED\r\nx-a: 1\r\nx-a: a: b, c\r\ncontent-length: 2\r\n\r\nhi".map .byte ++ rest)) :
    ∃ s' r', ResponseParser.parse prof .new r = (.done s', r') ∧ r'.Ahead rest ∧ s'.status = ⟨201, b!"CREATED"⟩ ∧
      s'.body = b!"hi" ∧ s'.headers.WF ∧ s'.headers.Equiv sampleRequest.headers :=
  C07_round_trip prof (s := ⟨⟨201, b!"CREATED"⟩, sampleRequest.headers, b!"hi"⟩)
    ⟨by decide, sampleRequest_sendable.headers, b!"2", ⟨[], by decide⟩, .inl (natDec_numeral 2), by decide⟩ (List.Perm.swap _ _ _)
    (w := b!"HTTP/1.1 201 CREATED\r\nx-a: 1\r\nx-a: a: b, c\r\ncontent-length: 2\r\n\r\nhi") (by decide +kernel) hr

example (prof : Profile) {r : Rd} {rest : List Atom} (hr : r.Ahead (b!"HTTP/1.1 200 OK\r\n\r\nhi".map .byte ++ .eof :: rest)) :
    ∃ s' r', ResponseParser.parse prof .new r = (.done s', r') ∧ r'.Ahead rest ∧ s'.status = ⟨200, b!"OK"⟩ ∧
      s'.body = b!"hi" ∧ s'.headers.WF ∧ s'.headers.Equiv [] :=
  C07_closed prof (s := ⟨⟨200, b!"OK"⟩, [], b!"hi"⟩)
    ⟨by decide, ⟨by simp [HeaderMap.WF], by simp, by simp, by simp, by decide⟩, ⟨by simp [HeaderMap.First], by simp [HeaderMap.First]⟩,
      by decide⟩ (List.Perm.refl _) (w := b!"HTTP/1.1 200 OK\r\n\r\nhi") (by decide +kernel) hr

/-! ## C49 -/

theorem digits_line {v : Bytes} {n : Nat} (hd : Numeral 10 v n) (hl : v.length ≤ 20) :
    FieldText (Header.contentLength.asStr, v) := by
  have hd := numeral_digits hd
  refine ⟨⟨?_, ?_, ?_⟩, occurs_ascii (s := Header.contentLength.asStr) (by decide)⟩
  · simp only [fieldLine, List.mem_append, not_or]
    refine ⟨⟨by decide, by decide⟩, fun h => ?_⟩
    have := (hd _ h).1
    simp [LF] at this
  · refine utf8_ascii fun c hc => ?_
    simp only [fieldLine, List.mem_append] at hc
    rcases hc with hc | hc
    · have : ∀ c ∈ Header.contentLength.asStr ++ b!": ", c < 128 := by decide
      exact this c (List.mem_append.2 hc)
    · have := (hd c hc).2
      exact UInt8.lt_iff_toNat_lt.2 (by simp; omega)
  · simp only [fieldLine, List.length_append, show Header.contentLength.asStr.length = 14 from rfl]; simp; omega

theorem sized_sendable {st : Status} (hst : st ∈ statusTable) {body v : Bytes} (hv : Numeral 10 v body.length)
    (hvl : v.length ≤ 20) (h : 2 * body.length ≤ 3 * 1024 * 1024) :
    (⟨st, HeaderMap.fromPairs [(Header.contentLength, v)], body⟩ : Response).Sendable := by
  have e : HeaderMap.fromPairs [(Header.contentLength, v)] = [(Header.contentLength, [v])] := rfl
  rw [e]
  refine ⟨hst, ⟨by simp [HeaderMap.WF], ?_, by simp, ?_, ?_⟩, v, ⟨[], by simp⟩, .inl hv, h⟩
  · intro e he
    simp only [List.mem_singleton] at he
    subst he
    exact ⟨b!"Content-Length", show Header.contentLength = _ by decide⟩
  · intro e he u hu
    simp only [List.mem_singleton] at he
    subst he
    simp only [List.mem_singleton] at hu
    subst hu
    exact digits_line hv hvl
  · simp only [List.flatMap_cons, List.flatMap_nil, List.append_nil, List.length_append,
      show Header.contentLength.asStr.length = 14 from rfl]
    simp; omega

/-- C49: a response made from a status has no body and a Content-Length of zero; one made from a string or
bytes has status 200 and the length of these bytes in decimal. -/
theorem C49_described (st : Status) (body : Bytes) :
    (Response.ofStatus st).status = st ∧ (Response.ofStatus st).body = [] ∧
      (Response.ofStatus st).headers = [(Header.contentLength, [b!"0"])] ∧
    (Response.ofBody body).status = ⟨200, b!"OK"⟩ ∧ (Response.ofBody body).body = body ∧
      ∃ v, (Response.ofBody body).headers = [(Header.contentLength, [v])] ∧ Numeral 10 v body.length :=
  ⟨rfl, rfl, rfl, rfl, rfl, _, rfl, natDec_numeral _⟩

/-- C49: a response made from a predefined status is read back unchanged by the client. -/
theorem C49_status (prof : Profile) {st : Status} (hst : st ∈ statusTable) {w : Bytes}
    (hw : writeResponse ([] : Bytes) (.ofStatus st) = (.ok, w)) {r : Rd} {rest : List Atom}
    (hr : r.Ahead (w.map .byte ++ rest)) :
    ∃ r', ResponseParser.parse prof .new r = (.done (.ofStatus st), r') ∧ r'.Ahead rest := by
  rw [C39_response] at hw
  simp only [List.nil_append, Prod.mk.injEq, true_and] at hw
  subst hw
  have h : (Response.ofStatus st).Sendable := sized_sendable hst (natDec_numeral 0) (by decide) (by decide)
  exact C04_response_accepted prof h.fitting (by simpa using hr)

/-- C49: a response made from a string or bytes, at most half of 3 MiB, is read back unchanged by the client. -/
theorem C49_body (prof : Profile) {body : Bytes} (hb : 2 * body.length ≤ 3 * 1024 * 1024) {w : Bytes}
    (hw : writeResponse ([] : Bytes) (.ofBody body) = (.ok, w)) {r : Rd} {rest : List Atom}
    (hr : r.Ahead (w.map .byte ++ rest)) :
    ∃ r', ResponseParser.parse prof .new r = (.done (.ofBody body), r') ∧ r'.Ahead rest := by
  rw [C39_response] at hw
  simp only [List.nil_append, Prod.mk.injEq, true_and] at hw
  subst hw
  have h : (Response.ofBody body).Sendable :=
    sized_sendable (by decide) (natDec_numeral _) (Nat.le_trans (natDec_length _ 7 (by omega)) (by decide)) hb
  exact C04_response_accepted prof h.fitting (by simpa using hr)

example (prof : Profile) {r : Rd} {rest : List Atom}
    (hr : r.Ahead (b!"HTTP/1.1 200 OK\r\ncontent-length: 2\r\n\r\nhi".map .byte ++ rest)) :
    ∃ r', ResponseParser.parse prof .new r = (.done (.ofBody b!"hi"), r') ∧ r'.Ahead rest :=
  C49_body prof (by decide) (w := b!"HTTP/1.1 200 OK\r\ncontent-length: 2\r\n\r\nhi") (by decide +kernel) hr

example (prof : Profile) {r : Rd} {rest : List Atom}
    (hr : r.Ahead (b!"HTTP/1.1 404 NOT FOUND\r\ncontent-length: 0\r\n\r\n".map .byte ++ rest)) :
    ∃ r', ResponseParser.parse prof .new r = (.done (.ofStatus .notFound), r') ∧ r'.Ahead rest :=
  C49_status prof (by decide) (w := b!"HTTP/1.1 404 NOT FOUND\r\ncontent-length: 0\r\n\r\n") (by decide +kernel) hr

/-! ## C50 -/

/-- A client that receives the fixed 404 response cannot read it to its end before the stream ends. -/
theorem notFound_needs_end {prof : Profile} {r r' : Rd} {as : List Atom} {t : Response}
    (hr : r.Ahead (b!"HTTP/1.1 404 Not Found\r\n\r\n".map .byte ++ as))
    (h : ResponseParser.parse prof .new r = (.done t, r')) : .eof ∈ as := by
  obtain ⟨pre, line, fs, f, bw, h1, h2, -, -, h5, -, -⟩ := responseOne_done h hr.1
  rw [hr.2] at h1
  have hb := congrArg bytesOf h1
  rw [bytesOf_append, bytesOf_append, bytesOf_map, h5.wire] at hb
  obtain ⟨-, h6⟩ := line_unique (l := b!"HTTP/1.1 404 Not Found") (l' := line) (a := fieldLines [] ++ CRLF ++ bytesOf as)
    (a' := fieldLines fs ++ CRLF ++ (bw ++ bytesOf r'.src.atoms)) (by decide) h5.lineOk.noLf (by
      simpa [fieldLines, CRLF] using hb)
  obtain ⟨h7, -⟩ := fields_unique (fs := []) (by simp) h5.fields h6
  subst h7
  have h8 : Announces (fieldMap []) true (.ok .untilEof) :=
    Announces.none (isResponse := true) (ps := fieldMap []) (by simp [fieldMap]) (by simp [fieldMap])
  have h9 := C10_framing_unique h5.framing h8
  cases h9
  simp only [decide_true, Ends, if_true] at h2
  obtain ⟨q, -, rfl⟩ := h2
  have : Atom.eof ∈ b!"HTTP/1.1 404 Not Found\r\n\r\n".map Atom.byte ++ as := by rw [h1]; simp
  rcases List.mem_append.1 this with hm | hm
  · obtain ⟨x, -, hx⟩ := List.mem_map.1 hm
    cases hx
  · exact hm

section

variable {σ : Type} {rt : Router σ} {prof : Profile} {n : Nat}

/-- C50 is false, for all routers and requests: what the server sends for a request that no listener answers, and after
which it leaves the connection open, is never a complete response for the client. It waits, and whatever else the
client receives, it has no response before the stream ends. -/
theorem C50_unrouted_false {w : Bytes} {q : Request} (hq : FittingRequest w q) (ho : ¬ CloseAsked q)
    {c : Conn Rd Nbw} (hp : c.parser.getD .new = .new) (hr : c.reader.Ahead (w.map .byte)) {evs : List WEv}
    (hw : Writable rt n c [evs]) {s s' : σ} (hs : rt.result q s = (some .next, s')) :
    ∃ c' out, handleAll prof rt [evs] (.live c) s = (.live c', s') ∧ c'.writer.total = c.writer.total ++ out ∧
      (∀ r : Rd, r.Ahead (out.map .byte) → ∃ p r', ResponseParser.parse prof .new r = (.io p .wouldBlock, r')) ∧
      ∀ (r : Rd) (as : List Atom), r.Ahead (out.map .byte ++ as) → .eof ∉ as →
        ∀ t r', ResponseParser.parse prof .new r ≠ (.done t, r') := by
  obtain ⟨c', h1, -, h3, -⟩ := C34_answered_partial (prof := prof) (ms := [(w, q)]) (by simpa using hq) (by simpa using ho)
    (ps := []) (pausesWell_safe (by simp)) (last := w) unfinished_nil (by simp) hp (by simpa [spaced] using hr) rfl hw (.cons hs .nil)
  refine ⟨c', _, h1, h3, ?_, ?_⟩
  · intro r hr
    obtain ⟨r', h, -⟩ := responseParse_of (prof := prof) (p := .new) hr
      (o := .io (.body Status.notFound [] (.untilEof [])) .wouldBlock) (rest := [])
      (by rcases prof with ⟨_ | _⟩ <;> decide +kernel)
    exact ⟨_, r', h⟩
  · intro r as hr he t r' h
    exact he (notFound_needs_end (by simpa [answerBytes] using hr) h)

/-- C50, what is left of it (partial: for a request that asks for the connection to be closed, when everything held to be
sent reaches the client): the server closes the connection, and at its end the client has a 404 response. -/
theorem C50_closed_partial {w : Bytes} {q : Request} (hq : FittingRequest w q) (ho : CloseAsked q)
    {c : Conn Rd Nbw} (hp : c.parser.getD .new = .new) (hr : c.reader.Ahead (w.map .byte)) {evs : List WEv}
    (hw : Writable rt n c [evs]) {s s' : σ} (hs : rt.result q s = (some .next, s')) :
    ∃ c' out, handleAll prof rt [evs] (.live c) s = (.gone c', s') ∧ c'.writer.total = c.writer.total ++ out ∧
      ∀ (r : Rd) (rest : List Atom), r.Ahead (out.map .byte ++ .eof :: rest) →
        ∃ t r', ResponseParser.parse prof .new r = (.done t, r') ∧ r'.Ahead rest ∧ t.status.code = 404 ∧ t.headers = [] ∧
          t.body = [] := by
  obtain ⟨c', h1, -, h3, -⟩ := C36_asked_partial (prof := prof) (ms := []) (by simp) (by simp) hq ho
    (ps := []) (pausesWell_safe (by simp)) (last := w) (by rintro rfl; exact hq.ne_nil) (by simp) hp (X := []) (by simpa [spaced] using hr) (by simp) hw (.cons hs .nil)
  refine ⟨c', _, h1, h3, ?_⟩
  intro r rest hr
  have hf : FittingResponse b!"HTTP/1.1 404 Not Found\r\n\r\n" .untilEof ⟨.notFound, [], []⟩ := by
    refine ⟨b!"HTTP/1.1 404 Not Found", [], [], ⟨b!"HTTP/1.1", b!"404", b!" Not Found", .inr rfl, by decide,
      .inl (natDec_numeral 404), .inr ⟨_, rfl⟩, by decide⟩, ⟨⟨by decide, by decide, by decide⟩, by simp, ?_, rfl, by decide⟩, rfl,
      by decide, by decide⟩
    exact Announces.none (isResponse := true) (ps := fieldMap []) (by simp [fieldMap]) (by simp [fieldMap])
  obtain ⟨r', i1, i2⟩ := C04_response_accepted prof hf (rest := rest) (by simpa [answerBytes] using hr)
  exact ⟨_, r', i1, i2, rfl, rfl, rfl⟩

/-- A router without listeners. -/
def emptyRouter : Router Unit := []

theorem emptyRouter_result (q : Request) : emptyRouter.result q () = (some .next, ()) := rfl

theorem emptyRouter_writable (evs : List Ev) (es : List (List WEv)) (h : ∀ evs ∈ es, ∀ e, .err e ∈ evs → e = .wouldBlock) :
    Writable emptyRouter 28 (Conn.sample evs) es :=
  ⟨⟨by decide, fun q s r s' h => by rcases h with h | h <;> cases h⟩,
    ⟨.inr rfl, by simp [Conn.sample, Conn.new, Nbw.sample, Nbw.withCapacity]⟩,
    fun x hx => ⟨h x hx, .inr (show 28 ≤ 4096 by omega)⟩⟩

/-- The hypotheses of the theorems above can be met. -/
example : ∃ c' out, handleAll ⟨true⟩ emptyRouter [[.accept 100]] (.live (Conn.sample [.data aRequest.1])) () = (.live c', ()) ∧
    c'.writer.total = out ∧ (∀ r : Rd, r.Ahead (out.map .byte) → ∃ p r', ResponseParser.parse ⟨true⟩ .new r = (.io p .wouldBlock, r')) := by
  obtain ⟨c', out, h1, h2, h3, -⟩ := C50_unrouted_false (rt := emptyRouter) (prof := ⟨true⟩) (n := 28) aRequest_fits
    (by simp [CloseAsked, aRequest, HeaderMap.get]) (c := Conn.sample [.data aRequest.1]) rfl ⟨rfl, by decide +kernel⟩
    (evs := [.accept 100]) (emptyRouter_writable _ _ (by simp)) (emptyRouter_result _)
  exact ⟨c', out, h1, by simpa [Conn.sample, Conn.new, Nbw.sample, Nbw.withCapacity, Nbw.total, Nbw.pending] using h2, h3⟩

example : ∃ c', handleAll ⟨true⟩ emptyRouter [[.accept 100]] (.live (Conn.sample [.data closeRequest.1])) () = (.gone c', ()) := by
  obtain ⟨c', out, h1, -, -⟩ := C50_closed_partial (rt := emptyRouter) (prof := ⟨true⟩) (n := 28) closeRequest_fits
    closeRequest_asks (c := Conn.sample [.data closeRequest.1]) rfl ⟨rfl, by decide +kernel⟩
    (evs := [.accept 100]) (emptyRouter_writable _ _ (by simp)) (emptyRouter_result _)
  exact ⟨c', h1⟩

end

end Verif
