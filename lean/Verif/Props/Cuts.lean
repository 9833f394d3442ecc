import Verif.Proofs.NetConform
import Verif.Props.RoundTrip

/-!
C02 for requests of the grammar: where their text may be cut.
-/

namespace Verif

theorem ascii_next {w x : Bytes} (hw : ∀ c ∈ w, c < 128) (hx : x <+: w) (hne : x.length < w.length) : ∃ c z, c < 128 ∧ w = x ++ c :: z := by
  obtain ⟨z, rfl⟩ := hx
  cases z with
  | nil => simp at hne
  | cons c z => exact ⟨c, z, hw c (by simp), rfl⟩

theorem unsigned_lt {radix : Nat} {s : Bytes} {n : Nat} (h : UnsignedText radix s n) : ∀ c ∈ s, c < 128 := by
  intro c hc
  have := unsigned_ascii h c hc
  rw [UInt8.lt_iff_toNat_lt]
  simp; omega

theorem crlf_lt : ∀ c ∈ CRLF, c < 128 := by decide

/-- However far chunks have come, some chunks of the same sizes go on with an ASCII character. -/
theorem chunks_next {cs : List (Bytes × Bytes)} (hcs : ∀ c ∈ cs, ChunkText c) {last : Bytes} (hl : UnsignedText 16 last 0) {x : Bytes} (hx : x <+: chunkLines cs ++ last ++ CRLF ++ CRLF)
    (hne : x.length < (chunkLines cs ++ last ++ CRLF ++ CRLF).length) :
    ∃ cs' c z, (∀ c ∈ cs', ChunkText c) ∧ c < 128 ∧ chunkLines cs' ++ last ++ CRLF ++ CRLF = x ++ c :: z ∧
      (chunkLines cs' ++ last ++ CRLF ++ CRLF).length = (chunkLines cs ++ last ++ CRLF ++ CRLF).length := by
  induction cs generalizing x with
  | nil =>
    obtain ⟨c, z, h1, h2⟩ := ascii_next (w := chunkLines [] ++ last ++ CRLF ++ CRLF) (fun c hc => by
      simp only [chunkLines, List.flatMap_nil, List.nil_append, List.mem_append] at hc
      rcases hc with (hc | hc) | hc
      · exact unsigned_lt hl c hc
      · exact crlf_lt c hc
      · exact crlf_lt c hc) hx hne
    exact ⟨[], c, z, by simp, h1, h2, rfl⟩
  | cons k cs ih =>
    have hk := hcs k (by simp)
    have e : ∀ k' : Bytes × Bytes, chunkLines (k' :: cs) ++ last ++ CRLF ++ CRLF = (k'.1 ++ CRLF) ++ (k'.2 ++ (CRLF ++ (chunkLines cs ++ last ++ CRLF ++ CRLF))) := by
      intro k'; simp [chunkLines]
    rw [e] at hx hne ⊢
    by_cases h1 : x.length < (k.1 ++ CRLF).length
    · obtain ⟨c, z, h2, h3⟩ := ascii_next (w := k.1 ++ CRLF) (fun c hc => (List.mem_append.1 hc).elim (unsigned_lt hk.size c) (crlf_lt c))
        (List.prefix_of_prefix_length_le hx (List.prefix_append _ _) (by omega)) h1
      exact ⟨k :: cs, c, z ++ (k.2 ++ (CRLF ++ (chunkLines cs ++ last ++ CRLF ++ CRLF))), hcs, h2, by rw [e, h3]; simp, by rw [e]⟩
    · obtain ⟨y, rfl⟩ := List.prefix_of_prefix_length_le (List.prefix_append _ _) hx (by omega : (k.1 ++ CRLF).length ≤ x.length)
      rw [List.prefix_append_right_inj] at hx
      by_cases h2 : y.length < k.2.length
      · obtain ⟨n, hn⟩ : ∃ n, k.2.length = y.length + (n + 1) := ⟨k.2.length - y.length - 1, by omega⟩
        have hlen : (y ++ List.replicate (n + 1) (0 : UInt8)).length = k.2.length := by simp [hn]
        refine ⟨(k.1, y ++ List.replicate (n + 1) 0) :: cs, 0, List.replicate n 0 ++ (CRLF ++ (chunkLines cs ++ last ++ CRLF ++ CRLF)), ?_, by decide, ?_, ?_⟩
        · intro c hc
          rcases List.mem_cons.1 hc with rfl | hc
          · exact ⟨hk.short, by simp only; rw [hlen]; exact hk.size, by simp, by simp only; rw [hlen]; exact hk.max⟩
          · exact hcs c (by simp [hc])
        · rw [e]
          simp [List.replicate_succ]
        · rw [e]
          simp only [List.length_append] at hlen ⊢
          omega
      · obtain ⟨y, rfl⟩ := List.prefix_of_prefix_length_le (List.prefix_append _ _) hx (by omega : k.2.length ≤ y.length)
        rw [List.prefix_append_right_inj] at hx
        by_cases h3 : y.length < CRLF.length
        · obtain ⟨c, z, h4, h5⟩ := ascii_next (w := CRLF) crlf_lt (List.prefix_of_prefix_length_le hx (List.prefix_append _ _) (by omega)) h3
          have h6 : CRLF ++ (chunkLines cs ++ last ++ CRLF ++ CRLF) = y ++ c :: (z ++ (chunkLines cs ++ last ++ CRLF ++ CRLF)) := by
            rw [← List.cons_append, ← List.append_assoc y, ← h5]
          exact ⟨k :: cs, c, z ++ (chunkLines cs ++ last ++ CRLF ++ CRLF), hcs, h4, by rw [e, h6]; simp only [List.append_assoc], by rw [e]⟩
        · obtain ⟨y, rfl⟩ := List.prefix_of_prefix_length_le (List.prefix_append _ _) hx (by omega : CRLF.length ≤ y.length)
          rw [List.prefix_append_right_inj] at hx
          obtain ⟨cs', c, z, g1, g2, g3, g4⟩ := ih (fun c hc => hcs c (by simp [hc])) hx (by simp only [List.length_append] at hne ⊢; omega)
          refine ⟨k :: cs', c, z, ?_, g2, ?_, ?_⟩
          · intro c hc
            rcases List.mem_cons.1 hc with rfl | hc
            · exact hk
            · exact g1 c hc
          · have : chunkLines (k :: cs') ++ last ++ CRLF ++ CRLF = k.1 ++ CRLF ++ (k.2 ++ (CRLF ++ (chunkLines cs' ++ last ++ CRLF ++ CRLF))) := by simp [chunkLines]
            rw [this, g3]
            simp
          · have : chunkLines (k :: cs') ++ last ++ CRLF ++ CRLF = k.1 ++ CRLF ++ (k.2 ++ (CRLF ++ (chunkLines cs' ++ last ++ CRLF ++ CRLF))) := by simp [chunkLines]
            rw [this]
            simp only [List.length_append] at g4 ⊢
            omega

theorem PlainRequest.fitting {w : Bytes} {q : Request} (h : PlainRequest w q) : FittingRequest w q := by
  obtain ⟨line, fs, f, bw, h1, h2, h3, h4, -⟩ := h
  exact ⟨line, fs, f, bw, h1, h2, h3, h4⟩

/-- A request may be cut anywhere if its request line and its header fields are ASCII, whatever its body is. -/
theorem PlainRequest.anyCut {w : Bytes} {q : Request} (h : PlainRequest w q) : AnyCut w := by
  have hfit := h.fitting
  obtain ⟨line, fs, f, bw, hline, hm, hq, hf, ha⟩ := h
  intro p hp
  have hw := hm.wire
  generalize hh : line ++ CRLF ++ fieldLines fs ++ CRLF = head at hw
  have hasc : ∀ c ∈ head, c < 128 := by
    intro c hc
    rw [← hh] at hc
    simp only [List.mem_append] at hc ha
    rcases hc with ((hc | hc) | hc) | hc
    · exact ha c (.inl hc)
    · exact crlf_lt c hc
    · exact ha c (.inr hc)
    · exact crlf_lt c hc
  by_cases hl : p.length ≤ head.length
  · exact anyCut_ascii hasc p (List.prefix_of_prefix_length_le hp (by rw [hw]; exact List.prefix_append _ _) hl)
  by_cases he : p.length = w.length
  · obtain rfl : p = w := hp.eq_of_length he
    have := Harmless.after hfit .nil
    rwa [List.append_nil] at this
  have hlt : p.length < w.length := by have := hp.length_le; omega
  obtain ⟨x, rfl⟩ := List.prefix_of_prefix_length_le (by rw [hw]; exact List.prefix_append _ _) hp (by omega : head.length ≤ p.length)
  rw [hw, List.prefix_append_right_inj] at hp
  have hx : x.length < bw.length := by
    have := congrArg List.length hw
    simp only [List.length_append] at this hlt
    omega
  cases f with
  | length n =>
    have hb := hm.bodyOk
    obtain ⟨hb1, hn⟩ := hb
    obtain ⟨k, hk⟩ : ∃ k, n = x.length + (k + 1) := ⟨n - x.length - 1, by rw [hb1] at hx; omega⟩
    refine .next (c := 0) (x := List.replicate k 0) (q := { q with body := x ++ List.replicate (k + 1) 0 }) ?_ (by decide)
    exact ⟨line, fs, .length n, x ++ List.replicate (k + 1) 0, hline, ⟨hm.lineOk, hm.fields, hm.framing, ⟨rfl, by simp [hk]⟩, by rw [hh]; simp [List.replicate_succ]⟩, hq, hf⟩
  | chunked =>
    obtain ⟨cs, last, h1, h2, h3, h4, h5⟩ := hm.bodyOk
    subst h4
    obtain ⟨cs', c, z, g1, g2, g3, g4⟩ := chunks_next h1 h3 hp hx
    refine .next (c := c) (x := z) (q := { q with body := chunkData cs' }) ?_ (isCont_ascii g2)
    exact ⟨line, fs, .chunked, chunkLines cs' ++ last ++ CRLF ++ CRLF, hline, ⟨hm.lineOk, hm.fields, hm.framing, ⟨cs', last, g1, h2, h3, rfl, rfl⟩, by rw [hh, g3]; simp⟩, hq,
      hf.1, by simp only [g4]; exact hf.2⟩
  | untilEof =>
    have := hm.framing
    generalize hr : Except.ok (ε := ParsingError) Framing.untilEof = y at this
    cases this <;> simp at hr
  | noBody =>
    rw [hm.bodyOk.1] at hx
    cases hx

/-- So may a request that the client can send. -/
theorem Request.Sendable.anyCut {q : Request} (h : q.Sendable) (hu : ∀ c ∈ q.uri, c < 128) (hf : ∀ c ∈ fieldLines q.headers.fields, c < 128) : AnyCut (requestBytes q) := by
  have hline : LineText (q.method.text ++ [SP] ++ q.uri ++ [SP] ++ b!"HTTP/1.1") := by
    refine ⟨?_, ?_, ?_⟩
    · simp only [List.mem_append, not_or]
      exact ⟨⟨⟨⟨(method_text _).1, by decide⟩, h.noLf⟩, by decide⟩, by decide⟩
    · rw [List.append_assoc, List.append_assoc, utf8_append (method_text _).2, utf8_append h.utf8]
      decide
    · have := h.short
      simp only [List.length_append, List.length_singleton]
      simp; omega
  have hrl : RequestLine q.method q.uri (q.method.text ++ [SP] ++ q.uri ++ [SP] ++ b!"HTTP/1.1") :=
    ⟨b!"HTTP/1.1", [], .inr rfl, h.noSp, .inl rfl, by simp⟩
  have hsz := h.headers.size
  rw [← HeaderMap.fieldLines_fields] at hsz
  have hwire : requestBytes q = q.method.text ++ [SP] ++ q.uri ++ [SP] ++ b!"HTTP/1.1" ++ CRLF ++
      fieldLines q.headers.fields ++ CRLF ++ q.body := by
    rw [HeaderMap.fieldLines_fields]
    simp [requestBytes, SP, CRLF]
  have hmt : ∀ c ∈ q.method.text, c < 128 := by cases q.method <;> decide
  have hasc : ∀ c ∈ q.method.text ++ [SP] ++ q.uri ++ [SP] ++ b!"HTTP/1.1" ++ fieldLines q.headers.fields, c < 128 := by
    intro c hc
    simp only [List.mem_append] at hc
    rcases hc with ((((hc | hc) | hc) | hc) | hc) | hc
    · exact hmt c hc
    · revert c; decide
    · exact hu c hc
    · revert c; decide
    · revert c; decide
    · exact hf c hc
  rcases h.body with hb | ⟨hb, he⟩
  · exact PlainRequest.anyCut ⟨_, _, .length q.body.length, q.body, hrl, ⟨hline, h.headers.fieldText, h.headers.announces_sized hb _, ⟨rfl, rfl⟩, hwire⟩, h.headers.fromPairs.symm, ⟨hsz, hb.choose_spec.2.2⟩, hasc⟩
  · refine anyCut_ascii fun c hc => ?_
    rw [hwire, he] at hc
    simp only [List.mem_append, List.not_mem_nil, or_false] at hc hasc
    rcases hc with ((hc | hc) | hc) | hc
    · exact hasc c (.inl (by simpa using hc))
    · revert c; decide
    · exact hf c hc
    · revert c; decide

/-- C02 for requests of the grammar (partial: no pause may cut a character of a line): a request is received whatever pauses there are between its bytes, if each is where nothing is lost. -/
theorem C02_cuts_partial (prof : Profile) {q : Request} {ps : List Bytes} {last : Bytes} {rest : List Atom} (h : FittingRequest (ps.flatten ++ last) q) (hlast : last ≠ [])
    (hps : PausesWell ps) {r : Rd} (hr : r.Ahead (spaced (ps.map fun a => a.map .byte) (last.map .byte ++ rest))) :
    ∃ r', Calls (RequestParser.parse prof) .new r (.done q) r' ∧ r'.Ahead rest :=
  h.decides.pieces hlast rfl hps hr

/-- C02 (partial: within the limits, and request line and header fields in ASCII): a request is received whatever pauses there are between its bytes, also in a body that is no text, sent with its length or in chunks. -/
theorem C02_plain_partial (prof : Profile) {q : Request} {ps : List Bytes} {last : Bytes} {rest : List Atom} (h : PlainRequest (ps.flatten ++ last) q) (hlast : last ≠ []) {r : Rd}
    (hr : r.Ahead (spaced (ps.map fun a => a.map .byte) (last.map .byte ++ rest))) : ∃ r', Calls (RequestParser.parse prof) .new r (.done q) r' ∧ r'.Ahead rest := by
  refine C02_cuts_partial prof h.fitting hlast (fun l a m e => h.anyCut _ ?_) hr
  subst e
  exact ⟨m.flatten ++ last, by simp⟩

/-- Pauses are harmless anywhere in such requests. -/
theorem pausesWell_plain {ms : List (Bytes × Request)} (h : ∀ m ∈ ms, PlainRequest m.1 m.2) {ps : List Bytes} (hp : ps.flatten <+: ms.flatMap Prod.fst) : PausesWell ps := by
  rintro l a m rfl
  refine anyCut_all (fun m hm => ⟨(h m hm).fitting, (h m hm).anyCut⟩) _ (List.IsPrefix.trans ⟨m.flatten, ?_⟩ hp)
  simp

/-- C34 (partial: request lines and header fields in ASCII, and writers as in `C34_answered_partial`): the same for requests that come in any pieces whatsoever. -/
theorem C34_plain_partial {σ : Type} {rt : Router σ} {n : Nat} {prof : Profile} {ms : List (Bytes × Request)} (hms : ∀ m ∈ ms, PlainRequest m.1 m.2) (hopen : ∀ m ∈ ms, ¬ CloseAsked m.2) {ps : List Bytes} {last : Bytes}
    (he : ps.flatten ++ last = ms.flatMap Prod.fst) {c : Conn Rd Nbw} (hp : c.parser.getD .new = .new) (hr : c.reader.Ahead (spaced (ps.map fun a => a.map .byte) (last.map .byte)))
    {es : List (List WEv)} (hlen : es.length = ps.length + 1) (hw : Writable rt n c es) {s s' : σ} {out : Bytes} (hs : Served rt s (ms.map Prod.snd) out s') :
    ∃ c', handleAll prof rt es (.live c) s = (.live c', s') ∧ c'.reader.Ahead [] ∧ c'.writer.total = c.writer.total ++ out ∧ c.writer.sock.sent <+: c'.writer.sock.sent :=
  C34_answered_partial (fun m hm => (hms m hm).fitting) hopen (pausesWell_plain hms ⟨last, he⟩) unfinished_nil (by simpa using he) hp hr hlen hw hs

/-- A request with a body that is no text. -/
def binaryUpload : Request := ⟨b!"/u", .post, [(.contentLength, [b!"4"])], [0xC3, 0xA9, 0x0A, 0x80]⟩

theorem binaryUpload_sendable : binaryUpload.Sendable := by
  obtain ⟨-, h1, -⟩ := sized_sendable (st := ⟨200, b!"OK"⟩) (v := b!"4") (body := binaryUpload.body) (by decide) (.digit ⟨by decide, .inl ⟨by decide, by decide⟩⟩) (by decide) (by decide)
  exact ⟨by decide, by decide, by decide, by decide, h1, .inl ⟨b!"4", ⟨[], by simp [binaryUpload]⟩, .inl (.digit ⟨by decide, .inl ⟨by decide, by decide⟩⟩), by decide⟩⟩

/-- The conditions of `C02_cuts_partial` can be met by cuts anywhere in a body that is no text. -/
example (prof : Profile) : ∃ r', Calls (RequestParser.parse prof) .new (Rd.sample [.data b!"POST /u HTTP/1.1\r\ncontent-le", .err .wouldBlock, .data (b!"ngth: 4\r\n\r\n" ++ [0xC3]), .err .wouldBlock,
    .data [0xA9, 0x0A], .err .wouldBlock, .data (0x80 :: b!"GET")]) (.done binaryUpload) r' ∧ r'.Ahead (b!"GET".map .byte) := by
  have hc : AnyCut (requestBytes binaryUpload) := binaryUpload_sendable.anyCut (by decide) (by decide)
  refine C02_cuts_partial prof (ps := [b!"POST /u HTTP/1.1\r\ncontent-le", b!"ngth: 4\r\n\r\n" ++ [0xC3], [0xA9, 0x0A]]) (last := [0x80]) ?_ (by decide) (fun l a m e => hc _ ?_) ⟨rfl, by decide⟩
  · have h : requestBytes binaryUpload = [b!"POST /u HTTP/1.1\r\ncontent-le", b!"ngth: 4\r\n\r\n" ++ [0xC3], [0xA9, 0x0A]].flatten ++ [0x80] := by decide +kernel
    rw [← h]
    exact binaryUpload_sendable.fitting
  · obtain ⟨z, hz⟩ : ∃ z, requestBytes binaryUpload = (l ++ a :: m).flatten ++ z := ⟨[0x80], by rw [← e]; decide +kernel⟩
    rw [hz]
    exact ⟨m.flatten ++ z, by simp⟩

/-- A request with a body that is no text and comes in chunks. -/
def chunkedUpload : Bytes × Request :=
  (b!"POST /u HTTP/1.1\r\nTransfer-Encoding: chunked\r\n\r\n2\r\n" ++ [0xE2, 0x82] ++ b!"\r\n0\r\n\r\n", ⟨b!"/u", .post, [(.transferEncoding, [b!"chunked"])], [0xE2, 0x82]⟩)

theorem chunkedUpload_plain : PlainRequest chunkedUpload.1 chunkedUpload.2 := by
  refine ⟨b!"POST /u HTTP/1.1", [(b!"Transfer-Encoding", b!"chunked")], .chunked, b!"2\r\n" ++ [0xE2, 0x82] ++ b!"\r\n0\r\n\r\n", ⟨b!"HTTP/1.1", [], .inr rfl, by decide, .inl rfl, by decide⟩,
    ⟨⟨by decide, by decide, by decide⟩, ?_, ?_, ⟨[(b!"2", [0xE2, 0x82])], b!"0", ?_, by decide, .inl (.digit ⟨by decide, .inl ⟨by decide, by decide⟩⟩), by decide, by decide⟩, by decide +kernel⟩,
    by decide, ⟨by decide, by decide⟩, by decide⟩
  · intro x hx
    obtain rfl := List.mem_singleton.1 hx
    exact ⟨⟨by decide, by decide, by decide⟩, occurs_ascii (by decide)⟩
  · refine .chunked (v := b!"chunked") (by decide) (by decide) ⟨[], [], by decide⟩
  · intro c hc
    obtain rfl := List.mem_singleton.1 hc
    exact ⟨by decide, .inl (.digit ⟨by decide, .inl ⟨by decide, by decide⟩⟩), by decide, by decide⟩

/-- The conditions of `C02_plain_partial` can be met by a body that is no text and comes in chunks, with pauses in the data of a chunk, between data and CRLF, and in the CRLF. -/
example (prof : Profile) : ∃ r', Calls (RequestParser.parse prof) .new (Rd.sample [.data (b!"POST /u HTTP/1.1\r\nTransfer-Encoding: chunked\r\n\r\n2\r\n" ++ [0xE2]), .err .wouldBlock, .data [0x82], .err .wouldBlock,
    .data [13], .err .wouldBlock, .data b!"\n0\r\n\r\nGET"]) (.done chunkedUpload.2) r' ∧ r'.Ahead (b!"GET".map .byte) :=
  C02_plain_partial prof (ps := [b!"POST /u HTTP/1.1\r\nTransfer-Encoding: chunked\r\n\r\n2\r\n" ++ [0xE2], [0x82], [13]]) (last := b!"\n0\r\n\r\n")
    (by rw [show [b!"POST /u HTTP/1.1\r\nTransfer-Encoding: chunked\r\n\r\n2\r\n" ++ [0xE2], [0x82], [13]].flatten ++ b!"\n0\r\n\r\n" = chunkedUpload.1 by decide +kernel]; exact chunkedUpload_plain)
    (by decide) ⟨rfl, by decide⟩

/-- The conditions of `C34_plain_partial` can be met by two such requests, with pauses in the data of chunks. -/
example : ∃ c', handleAll ⟨true⟩ counter [[.accept 7], [], [.accept 100]]
    (.live (Conn.sample [.data (chunkedUpload.1.take 52), .err .wouldBlock, .data (chunkedUpload.1.drop 52 ++ chunkedUpload.1.take 52), .err .wouldBlock, .data (chunkedUpload.1.drop 52)])) 5 = (.live c', 7) ∧
      c'.writer.total = b!"HTTP/1.1 200 OK\r\n\r\nhiHTTP/1.1 200 OK\r\n\r\nhi" := by
  obtain ⟨c', h1, -, h2, -⟩ := C34_plain_partial (rt := counter) (prof := ⟨true⟩) (n := 28) (ms := [chunkedUpload, chunkedUpload]) (by simp [chunkedUpload_plain]) (by simp [CloseAsked, chunkedUpload, HeaderMap.get])
    (ps := [chunkedUpload.1.take 52, chunkedUpload.1.drop 52 ++ chunkedUpload.1.take 52]) (last := chunkedUpload.1.drop 52) (by decide +kernel)
    (c := Conn.sample [.data (chunkedUpload.1.take 52), .err .wouldBlock, .data (chunkedUpload.1.drop 52 ++ chunkedUpload.1.take 52), .err .wouldBlock, .data (chunkedUpload.1.drop 52)]) rfl ⟨rfl, by decide +kernel⟩
    (es := [[.accept 7], [], [.accept 100]]) rfl (sample_writable _ _ (by simp)) (s := 5) (s' := 7)
    (.cons (counter_result _ _) (.cons (counter_result _ _) .nil))
  exact ⟨c', h1, h2⟩

/-- ... which are in the middle of a character. -/
example : (chunkedUpload.1.take 52).getLast? = some 0xE2 := by decide +kernel

end Verif
