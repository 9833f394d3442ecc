import Verif.Spec.Injection
import Verif.Props.RoundTrip

/-!
C64: what is written as one message is read as one message.
-/

namespace Verif

theorem HeaderMap.Contained.perm {m m' : HeaderMap} (h : m.Contained) (hp : m.Perm m') : m'.Contained where
  wf := h.wf.perm (hp.map _)
  made e he := h.made e (hp.mem_iff.2 he)
  valued e he := h.valued e (hp.mem_iff.2 he)
  names e he := h.names e (hp.mem_iff.2 he)
  values e he := h.values e (hp.mem_iff.2 he)

theorem HeaderMap.Contained.fromPairs {m : HeaderMap} (h : m.Contained) : HeaderMap.fromPairs (fieldMap m.fields) = m := by
  have : fieldMap m.fields = m.flat := by
    unfold fieldMap HeaderMap.fields
    rw [List.map_map]
    conv => rhs; rw [← List.map_id m.flat]
    apply List.map_congr_left
    rintro ⟨k, v⟩ hp
    obtain ⟨e, he, hp⟩ := List.mem_flatMap.1 hp
    obtain ⟨v', hv', hp⟩ := List.mem_map.1 hp
    cases hp
    simp [HeaderMap.ofStr_made (h.made e he)]
  rw [this, HeaderMap.fromPairs_flat h.wf h.valued]

theorem HeaderMap.Contained.find {m : HeaderMap} (h : m.Contained) (k : Header) (v : Bytes) :
    ((fieldMap m.fields).find? fun p => p.1 = k).map Prod.snd = some v ↔ m.First k v := by
  rw [← getFirst_fromPairs, h.fromPairs, HeaderMap.getFirst_iff h.wf]

theorem HeaderMap.Contained.fields {m : HeaderMap} (h : m.Contained) : ∀ x ∈ m.fields, LF ∉ fieldLine x ∧ ¬ Occurs b!": " x.1 := by
  intro x hx
  obtain ⟨p, hp, rfl⟩ := List.mem_map.1 hx
  obtain ⟨e, he, hp⟩ := List.mem_flatMap.1 hp
  obtain ⟨v', hv', hp⟩ := List.mem_map.1 hp
  cases hp
  refine ⟨?_, (h.names e he).2⟩
  simp only [fieldLine, List.mem_append, not_or]
  exact ⟨⟨(h.names e he).1, by decide⟩, h.values e he v' hv'⟩

/-- If what is written is read as a message at all, first line and fields are those that were written. -/
theorem contained_message {b : Bool} {line line' body body' bw w a a' : Bytes} {m : HeaderMap} {fs : List (Bytes × Bytes)} {f : Framing} (hl : LF ∉ line) (hm : m.Contained)
    (h : MessageText line' fs b f bw body' w) (he : line ++ CRLF ++ fieldLines m.fields ++ CRLF ++ body ++ a = w ++ a') :
    line = line' ∧ m.fields = fs ∧ body ++ a = bw ++ a' := by
  rw [h.wire] at he
  obtain ⟨h1, h2⟩ := line_unique (l := line) (l' := line') (a := fieldLines m.fields ++ CRLF ++ (body ++ a)) (a' := fieldLines fs ++ CRLF ++ (bw ++ a')) hl h.lineOk.noLf (by simpa using he)
  obtain ⟨h3, h4⟩ := fields_unique_of hm.fields (fun x hx => ⟨(h.fields x hx).line.noLf, (h.fields x hx).first⟩) h2
  exact ⟨h1, h3, h4⟩

theorem framing_described {b : Bool} {m : HeaderMap} (hm : m.Contained) {body : Bytes} (hd : m.Describes body) {f : Framing} (h : Announces (fieldMap m.fields) b (.ok f)) :
    f = .length body.length := by
  obtain ⟨v, h1, h2⟩ := hd
  have h1 := (hm.find _ _).2 h1
  generalize hx : (Except.ok f : Except ParsingError Framing) = x at h
  cases h with
  | length k1 k2 k3 =>
    cases hx
    rw [k1] at h1
    cases h1
    rw [unsignedText_unique (by omega) k2 h2]
  | tooLarge => cases hx
  | badLength => cases hx
  | chunked k1 =>
    exfalso
    cases hf : (fieldMap m.fields).find? (fun p => p.1 = Header.contentLength) with
    | none => rw [hf] at h1; cases h1
    | some p => exact k1 p (List.mem_of_find?_eq_some hf) (by simpa using List.find?_some hf)
  | none k1 =>
    exfalso
    cases hf : (fieldMap m.fields).find? (fun p => p.1 = Header.contentLength) with
    | none => rw [hf] at h1; cases h1
    | some p => exact k1 p (List.mem_of_find?_eq_some hf) (by simpa using List.find?_some hf)

theorem framing_unframed {m : HeaderMap} (hm : m.Contained) (hd : m.Unframed) {f : Framing} (h : Announces (fieldMap m.fields) false (.ok f)) : f = .noBody := by
  generalize hx : (Except.ok f : Except ParsingError Framing) = x at h
  cases h with
  | length k1 => exact absurd ((hm.find _ _).1 k1) (hd.1 _)
  | tooLarge => cases hx
  | badLength => cases hx
  | chunked k1 k2 k3 => exact absurd k3 (hd.2 _ ((hm.find _ _).1 k2))
  | none => cases hx; rfl

theorem contained_request {q q' : Request} (h : q.Contained) {w a a' : Bytes} (ht : RequestText w q') (he : requestBytes q ++ a = w ++ a') :
    q' = q ∧ w = requestBytes q := by
  obtain ⟨line, fs, f, bw, h4, h5, h6⟩ := ht
  have hc := h.headers
  have hlf : LF ∉ q.method.text ++ [SP] ++ q.uri ++ [SP] ++ b!"HTTP/1.1" := by
    simp only [List.mem_append, not_or]
    exact ⟨⟨⟨⟨(method_text _).1, by decide⟩, h.noLf⟩, by decide⟩, by decide⟩
  have hwire : requestBytes q = q.method.text ++ [SP] ++ q.uri ++ [SP] ++ b!"HTTP/1.1" ++ CRLF ++ fieldLines q.headers.fields ++ CRLF ++ q.body := by
    rw [HeaderMap.fieldLines_fields]
    simp [requestBytes, SP, CRLF]
  rw [hwire] at he
  obtain ⟨e1, e2, e3⟩ := contained_message hlf hc h5 he
  subst e1 e2
  have hbody : bw = q.body ∧ q'.body = q.body := by
    rcases h.body with hd | ⟨hd, he⟩
    · have hf := framing_described hc hd h5.framing
      subst hf
      obtain ⟨j1, j2⟩ := h5.bodyOk
      obtain ⟨j3, -⟩ := List.append_inj e3 (by rw [j1, j2])
      exact ⟨j3.symm, by rw [j3, j1]⟩
    · have hf := framing_unframed hc hd h5.framing
      subst hf
      obtain ⟨j1, j2⟩ := h5.bodyOk
      exact ⟨by rw [j1, he], by rw [j2, he]⟩
  refine ⟨?_, by rw [h5.wire, hbody.1, hwire]⟩
  have h8 := requestLine_iff.2 h4
  have h9 : RequestLine q.method q.uri (q.method.text ++ [SP] ++ q.uri ++ [SP] ++ b!"HTTP/1.1") := ⟨b!"HTTP/1.1", [], .inr rfl, h.noSp, .inl rfl, by simp⟩
  rw [requestLine_iff.2 h9] at h8
  rw [hc.fromPairs] at h6
  cases q'; cases q
  simp_all

theorem contained_response {s s' : Response} (h : s.Contained) {w a a' : Bytes} (ht : ResponseText w s') (he : responseBytes s ++ a = w ++ a') :
    s' = s ∧ w = responseBytes s := by
  obtain ⟨line, fs, f, bw, h4, h5, h6⟩ := ht
  have hc := h.headers
  obtain ⟨hl1, hl2⟩ := HeaderMap.Writable.status_line h.status
  rw [response_wire] at he
  obtain ⟨e1, e2, e3⟩ := contained_message hl1.noLf hc h5 he
  subst e1 e2
  have hf := framing_described hc h.body h5.framing
  subst hf
  obtain ⟨j1, j2⟩ := h5.bodyOk
  obtain ⟨j3, -⟩ := List.append_inj e3 (by rw [j1, j2])
  refine ⟨?_, by rw [h5.wire, ← j3, response_wire]⟩
  have h8 := statusLine_iff.2 h4
  rw [statusLine_iff.2 hl2] at h8
  rw [hc.fromPairs] at h6
  have h9 : s'.body = s.body := by rw [j3, j1]
  cases s'; cases s
  simp_all

theorem Request.Contained.perm {q : Request} (h : q.Contained) {m : HeaderMap} (hm : q.headers.Perm m) : ({ q with headers := m } : Request).Contained where
  noSp := h.noSp
  noLf := h.noLf
  headers := h.headers.perm hm
  body := h.body.imp (fun ⟨v, h1, h2⟩ => ⟨v, (HeaderMap.First.perm hm _ _).1 h1, h2⟩) fun h => ⟨h.1.perm hm, h.2⟩

theorem Response.Contained.perm {s : Response} (h : s.Contained) {m : HeaderMap} (hm : s.headers.Perm m) : ({ s with headers := m } : Response).Contained where
  status := h.status
  headers := h.headers.perm hm
  body := let ⟨v, h1, h2⟩ := h.body; ⟨v, (HeaderMap.First.perm hm _ _).1 h1, h2⟩

/-- C64 (partial: the target has neither space nor line feed, no header contains a line feed, no name a colon with a space, and Content-Length describes the body; and the server reads it in one
call): a request of the client, written in whatever order the header map is iterated, is read by the server as that one request, or refused; whatever its body says, no part of it becomes another
request. -/
theorem C64_request_partial {prof : Profile} {q : Request} (h : q.Contained) {m : HeaderMap} (hm : q.headers.Perm m) {w : Bytes}
    (hw : writeRequest ([] : Bytes) { q with headers := m } = (.ok, w)) {r r' : Rd} {rest : List Atom} (hr : r.Ahead (w.map .byte ++ rest)) {q' : Request}
    (hd : RequestParser.parse prof .new r = (.done q', r')) : q' = { q with headers := m } ∧ r'.Ahead rest := by
  rw [C39_request] at hw
  simp only [List.nil_append, Prod.mk.injEq, true_and] at hw
  subst hw
  obtain ⟨pre, line, fs, f, bw, h1, h2, h3, h4, h5, h6, h7⟩ := requestOne_done hd hr.1
  have hb := congrArg bytesOf h1
  rw [hr.2, bytesOf_append, bytesOf_append, bytesOf_map] at hb
  obtain ⟨e1, e2⟩ := contained_request (h.perm hm) ⟨line, fs, f, bw, h4, h5, h6⟩ hb
  refine ⟨e1, ?_⟩
  rw [e2] at h5
  obtain ⟨r'', k1, k2⟩ := C04_request_accepted prof ⟨line, fs, f, bw, h4, h5, h6, h7.1 rfl⟩ hr
  rw [hd] at k1
  cases k1
  exact k2

/-- C64 (partial: as `C64_request_partial`, and all bytes are ASCII): the same when there are pauses in the request. -/
theorem C64_request_paused_partial {prof : Profile} {q : Request} (h : q.Contained) {m : HeaderMap} (hm : q.headers.Perm m) {w : Bytes}
    (hw : writeRequest ([] : Bytes) { q with headers := m } = (.ok, w)) {r r' : Rd} (hl : r.lims = []) {a : Bytes} (hr : bytesOf r.src.atoms = w ++ a)
    (ha : ∀ c ∈ bytesOf r.src.atoms, c < 128) {q' : Request} (hd : Calls (RequestParser.parse prof) .new r (.done q') r') :
    q' = { q with headers := m } ∧ bytesOf r'.src.atoms = a := by
  rw [C39_request] at hw
  simp only [List.nil_append, Prod.mk.injEq, true_and] at hw
  subst hw
  obtain ⟨pre, h1, h2⟩ := C03_ascii_partial hl ha hd
  have hb := congrArg bytesOf h1
  rw [hr, bytesOf_append] at hb
  obtain ⟨e1, e2⟩ := contained_request (h.perm hm) h2 hb
  refine ⟨e1, ?_⟩
  rw [e2] at hb
  exact (List.append_cancel_left hb).symm

/-- C64 (partial: no header contains a line feed, no name a colon with a space, the status is a predefined one, Content-Length describes the body; and the client reads it in one call): a response
of the server is read by the client as that one response, or refused. -/
theorem C64_response_partial {prof : Profile} {s : Response} (h : s.Contained) {m : HeaderMap} (hm : s.headers.Perm m) {w : Bytes}
    (hw : writeResponse ([] : Bytes) { s with headers := m } = (.ok, w)) {r r' : Rd} {rest : List Atom} (hr : r.Ahead (w.map .byte ++ rest)) {s' : Response}
    (hd : ResponseParser.parse prof .new r = (.done s', r')) : s' = { s with headers := m } ∧ r'.Ahead rest := by
  rw [C39_response] at hw
  simp only [List.nil_append, Prod.mk.injEq, true_and] at hw
  subst hw
  obtain ⟨pre, line, fs, f, bw, h1, h2, h3, h4, h5, h6, h7⟩ := responseOne_done hd hr.1
  have hb := congrArg bytesOf h1
  rw [hr.2, bytesOf_append, bytesOf_append, bytesOf_map] at hb
  have hc := h.perm hm
  obtain ⟨e1, e2⟩ := contained_response hc ⟨line, fs, f, bw, h4, h5, h6⟩ hb
  refine ⟨e1, ?_⟩
  obtain ⟨-, g2, -⟩ := contained_message (HeaderMap.Writable.status_line h.status).1.noLf hc.headers h5 (by have hb := hb; rw [response_wire] at hb; exact hb)
  subst g2
  have hf := framing_described hc.headers hc.body h5.framing
  subst hf
  rw [e2] at h5
  obtain ⟨r'', k1, k2⟩ := C04_response_accepted (rest := rest) prof ⟨line, _, bw, h4, h5, h6, h7.1 rfl⟩ (by simpa using hr)
  rw [hd] at k1
  cases k1
  exact k2

theorem mem_fromPairs {ps : List (Header × Bytes)} {e : Header × List Bytes} (he : e ∈ HeaderMap.fromPairs ps) : ∀ v ∈ e.2, (e.1, v) ∈ ps := by
  intro v hv
  have h1 := (HeaderMap.get_iff (HeaderMap.wf_fromPairs ps) (k := e.1) (vs := e.2)).2 he
  rw [HeaderMap.get_fromPairs] at h1
  split at h1
  · cases h1
  · rw [← Option.some.inj h1] at hv
    unfold HeaderMap.valuesOf at hv
    simp only [List.mem_map, List.mem_filter, decide_eq_true_eq] at hv
    obtain ⟨p, ⟨h2, h3⟩, rfl⟩ := hv
    rw [← h3]
    exact h2

/-- C64: nothing that the server has read, however the bytes arrived, contains a line feed: neither the target nor any header value. -/
theorem C64_received {prof : Profile} {r r' : Rd} {q : Request} (hl : r.lims = []) (h : Calls (RequestParser.parse prof) .new r (.done q) r') :
    LF ∉ q.uri ∧ ∀ e ∈ q.headers, ∀ v ∈ e.2, LF ∉ v := by
  obtain ⟨parts, -, line, fs, f, bw, h1, h2, h3⟩ := C03_resumed_partial hl h
  obtain ⟨version, extra, -, -, -, e⟩ := h1
  refine ⟨fun hu => h2.lineOk.noLf (by rw [e]; simp [hu]), fun e he v hv hlf => ?_⟩
  rw [h3] at he
  obtain ⟨x, hx, e2⟩ := List.mem_map.1 (mem_fromPairs he v hv)
  refine (h2.fields x hx).line.noLf ?_
  have : x.2 = v := congrArg Prod.snd e2
  simp [fieldLine, this, hlf]

/-- C64: what was received can be reflected: a response whose header values are fixed ones without line feed, or the target or header values of a request that the server has read, is read by the
client as that one response or refused. (The other conditions of `C64_response_partial` are about the fixed part of the response.) -/
theorem C64_reflected_partial {prof prof' : Profile} {r₀ r₀' : Rd} {q : Request} (hl : r₀.lims = []) (hq : Calls (RequestParser.parse prof') .new r₀ (.done q) r₀') {s : Response}
    (h1 : s.status ∈ statusTable) (h2 : s.headers.WF) (h3 : ∀ e ∈ s.headers, ∃ name, e.1 = Header.ofStr name) (h4 : ∀ e ∈ s.headers, e.2 ≠ [])
    (h5 : ∀ e ∈ s.headers, LF ∉ e.1.asStr ∧ ¬ Occurs b!": " e.1.asStr) (h6 : s.headers.Describes s.body)
    (hv : ∀ e ∈ s.headers, ∀ v ∈ e.2, LF ∉ v ∨ v = q.uri ∨ ∃ e' ∈ q.headers, v ∈ e'.2) {m : HeaderMap} (hm : s.headers.Perm m) {w : Bytes}
    (hw : writeResponse ([] : Bytes) { s with headers := m } = (.ok, w)) {r r' : Rd} {rest : List Atom} (hr : r.Ahead (w.map .byte ++ rest)) {s' : Response}
    (hd : ResponseParser.parse prof .new r = (.done s', r')) : s' = { s with headers := m } ∧ r'.Ahead rest := by
  obtain ⟨k1, k2⟩ := C64_received hl hq
  refine C64_response_partial ⟨h1, ⟨h2, h3, h4, h5, fun e he v hve => ?_⟩, h6⟩ hm hw hr hd
  rcases hv e he v hve with h | rfl | ⟨e', he', h⟩
  · exact h
  · exact k1
  · exact k2 e' he' v h

/-- A request that is contained: long, with a colon and a carriage return in a value. -/
example : Request.Contained ⟨b!"/", .post, [(.contentLength, [b!"2"]), (.ofStr b!"X-A", [b!"a: b" ++ [CR]])], b!"hi"⟩ where
  noSp := by decide
  noLf := by decide
  headers := by
    refine ⟨by unfold HeaderMap.WF; decide, ?_, by decide, ?_, by decide +kernel⟩
    · intro e he
      simp only [List.mem_cons, List.not_mem_nil, or_false] at he
      rcases he with rfl | rfl
      · exact ⟨b!"Content-Length", by decide⟩
      · exact ⟨b!"X-A", rfl⟩
    · intro e he
      refine ⟨?_, occurs_ascii ?_⟩ <;> revert e <;> decide +kernel
  body := .inl ⟨b!"2", ⟨[], by decide⟩, .inl (natDec_numeral 2)⟩

/-! ## Without the conditions -/

/-- What is written for `q` is read by the server as two requests, the second one for `/admin`. -/
def SplitsRequest (prof : Profile) (q : Request) : Prop :=
  ∃ w, writeRequest ([] : Bytes) q = (.ok, w) ∧ ∀ r : Rd, r.Ahead (w.map .byte) →
    ∃ q₁ q₂ r₁ r₂, RequestParser.parse prof .new r = (.done q₁, r₁) ∧ RequestParser.parse prof .new r₁ = (.done q₂, r₂) ∧ q₂.uri = b!"/admin" ∧ r₂.Ahead []

theorem splits_of {prof : Profile} {q q₁ q₂ : Request} {w : Bytes} (hw : writeRequest ([] : Bytes) q = (.ok, w)) {rest : List Atom}
    (h1 : RequestParser.parse prof .new (⟨[], w.map .byte⟩ : AR) = (.done q₁, ⟨[], rest⟩)) (h2 : RequestParser.parse prof .new (⟨[], rest⟩ : AR) = (.done q₂, ⟨[], []⟩))
    (h3 : q₂.uri = b!"/admin") : SplitsRequest prof q := by
  refine ⟨w, hw, fun r hr => ?_⟩
  obtain ⟨r₁, k1, k2⟩ := requestParse_of hr h1
  obtain ⟨r₂, k3, k4⟩ := requestParse_of k2 h2
  exact ⟨q₁, q₂, r₁, r₂, k1, k3, h3, k4⟩

/-- C64 is false of line feeds in a header value. -/
theorem C64_value_false (prof : Profile) : SplitsRequest prof ⟨b!"/", .get, [(.ofStr b!"X", [b!"a\r\n\r\nGET /admin HTTP/1.1"])], []⟩ :=
  splits_of (w := b!"GET / HTTP/1.1\r\nx: a\r\n\r\nGET /admin HTTP/1.1\r\n\r\n") (q₁ := ⟨b!"/", .get, [(.ofStr b!"X", [b!"a"])], []⟩) (q₂ := ⟨b!"/admin", .get, [], []⟩)
    (rest := b!"GET /admin HTTP/1.1\r\n\r\n".map .byte) (by decide +kernel) (by rcases prof with ⟨_ | _⟩ <;> decide +kernel) (by rcases prof with ⟨_ | _⟩ <;> decide +kernel) rfl

/-- C64 is false of spaces and line feeds in the target. -/
theorem C64_target_false (prof : Profile) : SplitsRequest prof ⟨b!"/ HTTP/1.1\r\n\r\nGET /admin", .get, [], []⟩ :=
  splits_of (w := b!"GET / HTTP/1.1\r\n\r\nGET /admin HTTP/1.1\r\n\r\n") (q₁ := ⟨b!"/", .get, [], []⟩) (q₂ := ⟨b!"/admin", .get, [], []⟩)
    (rest := b!"GET /admin HTTP/1.1\r\n\r\n".map .byte) (by decide +kernel) (by rcases prof with ⟨_ | _⟩ <;> decide +kernel) (by rcases prof with ⟨_ | _⟩ <;> decide +kernel) rfl

/-- C64 is false if there is no Content-Length: the client does not add one. -/
theorem C64_body_false (prof : Profile) : SplitsRequest prof ⟨b!"/", .post, [], b!"GET /admin HTTP/1.1\r\n\r\n"⟩ :=
  splits_of (w := b!"POST / HTTP/1.1\r\n\r\nGET /admin HTTP/1.1\r\n\r\n") (q₁ := ⟨b!"/", .post, [], []⟩) (q₂ := ⟨b!"/admin", .get, [], []⟩)
    (rest := b!"GET /admin HTTP/1.1\r\n\r\n".map .byte) (by decide +kernel) (by rcases prof with ⟨_ | _⟩ <;> decide +kernel) (by rcases prof with ⟨_ | _⟩ <;> decide +kernel) rfl

/-- C64 is false of a header name with a colon and a space, though there is no line feed in it: it is taken for another header, here one that says that the body is chunked. -/
theorem C64_name_false (prof : Profile) :
    SplitsRequest prof ⟨b!"/", .post, [(.ofStr b!"Transfer-Encoding: chunked", [b!"x"])], b!"0\r\n\r\nGET /admin HTTP/1.1\r\n\r\n"⟩ :=
  splits_of (w := b!"POST / HTTP/1.1\r\ntransfer-encoding: chunked: x\r\n\r\n0\r\n\r\nGET /admin HTTP/1.1\r\n\r\n")
    (q₁ := ⟨b!"/", .post, [(Header.transferEncoding, [b!"chunked: x"])], []⟩) (q₂ := ⟨b!"/admin", .get, [], []⟩)
    (rest := b!"GET /admin HTTP/1.1\r\n\r\n".map .byte) (by decide +kernel) (by rcases prof with ⟨_ | _⟩ <;> decide +kernel) (by rcases prof with ⟨_ | _⟩ <;> decide +kernel) rfl

/-- C64 is false of responses with line feeds in a header value (response splitting): the client reads two responses, and takes the second for the answer to its next request. -/
theorem C64_response_false (prof : Profile) : ∃ (s s₁ s₂ : Response) (w : Bytes), writeResponse ([] : Bytes) s = (.ok, w) ∧ s₂.body = b!"evil" ∧ ∀ r : Rd, r.Ahead (w.map .byte) →
    ∃ r₁ r₂, ResponseParser.parse prof .new r = (.done s₁, r₁) ∧ ResponseParser.parse prof .new r₁ = (.done s₂, r₂) := by
  refine ⟨⟨Status.ok, [(.contentLength, [b!"0"]), (.ofStr b!"Location", [b!"/x\r\n\r\nHTTP/1.1 200 OK\r\nContent-Length: 4\r\n\r\nevil"])], []⟩,
    ⟨Status.ok, [(.contentLength, [b!"0"]), (.ofStr b!"Location", [b!"/x"])], []⟩, ⟨Status.ok, [(.contentLength, [b!"4"])], b!"evil"⟩,
    b!"HTTP/1.1 200 OK\r\ncontent-length: 0\r\nlocation: /x\r\n\r\nHTTP/1.1 200 OK\r\nContent-Length: 4\r\n\r\nevil\r\n\r\n", by decide +kernel, rfl, fun r hr => ?_⟩
  obtain ⟨r₁, k1, k2⟩ := responseParse_of (prof := prof) (p := .new) (o := .done ⟨Status.ok, [(.contentLength, [b!"0"]), (.ofStr b!"Location", [b!"/x"])], []⟩)
    (rest := b!"HTTP/1.1 200 OK\r\nContent-Length: 4\r\n\r\nevil\r\n\r\n".map .byte) hr (by rcases prof with ⟨_ | _⟩ <;> decide +kernel)
  obtain ⟨r₂, k3, -⟩ := responseParse_of (prof := prof) (p := .new) (o := .done ⟨Status.ok, [(.contentLength, [b!"4"])], b!"evil"⟩)
    (rest := b!"\r\n\r\n".map .byte) k2 (by rcases prof with ⟨_ | _⟩ <;> decide +kernel)
  exact ⟨r₁, r₂, k1, k3⟩

end Verif
