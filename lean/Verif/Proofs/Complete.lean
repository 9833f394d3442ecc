import Verif.Proofs.Message

/-!
Completeness: every message of the grammar that fits is accepted by one call, which consumes exactly
its bytes.
-/

namespace Verif

theorem line_accept (prof : Profile) {l : Bytes} (h : LineText l) {ls : List Nat}
    (hls : ∀ x ∈ ls, l.length + 2 ≤ x) (as : List Atom) :
    CrlfLineParser.parse prof [] (⟨ls, (l ++ CRLF).map .byte ++ as⟩ : AR) =
      (.done l, ⟨decN (l.length + 2) ls, as⟩) := by
  have hb : bytesOf ((l ++ [CR]).map Atom.byte) = l ++ [CR] := bytesOf_map _
  have := crlf_accept prof (line := []) (ls := ls) (pre := (l ++ [CR]).map .byte) (as := as) (l := l)
    (quiet_map _) (by rw [hb]; simpa using ⟨h.noLf, by decide⟩)
    (by rw [hb, utf8_snoc_ascii (by decide)]; exact h.utf8) (by rw [hb]; rfl)
    (by rw [hb]; have := h.short; simp; omega)
    (by rw [hb]; intro x hx; have := hls x hx; simp; omega)
  rw [hb] at this
  simpa [CRLF] using this

theorem splitOnce_sep {name : Bytes} (h : ¬ Occurs b!": " name) (v : Bytes) :
    splitOnce b!": " (name ++ b!": " ++ v) = some (name, v) := by
  have hp : (b!": ") = [58, 32] := by decide
  rw [hp] at h ⊢
  induction name with
  | nil => simp [splitOnce]
  | cons c t ih =>
    have h' : ¬ Occurs [58, 32] t := fun ⟨a, b, hab⟩ => h ⟨c :: a, b, by simp [hab]⟩
    simp only [List.cons_append, splitOnce]
    have hn : List.isPrefixOf [58, 32] (c :: (t ++ [58, 32] ++ v)) = false := by
      rw [Bool.eq_false_iff]
      intro hpre
      rw [List.isPrefixOf_iff_prefix] at hpre
      obtain ⟨u, hu⟩ := hpre
      simp only [List.cons_append, List.nil_append, List.cons.injEq] at hu
      obtain ⟨rfl, hu⟩ := hu
      cases t with
      | nil => simp at hu
      | cons d t =>
        simp only [List.cons_append, List.cons.injEq] at hu
        exact h ⟨[], t, by simp [hu.1]⟩
    simp only [hn, Bool.false_eq_true, if_false]
    rw [ih h']
    rfl

theorem parseHeader_field {f : Bytes × Bytes} (h : FieldText f) :
    parseHeader (fieldLine f) = .ok (Header.ofStr f.1, f.2) := by
  unfold parseHeader fieldLine
  rw [splitOnce_sep h.first]

theorem fieldLine_ne_nil (f : Bytes × Bytes) : fieldLine f ≠ [] := by
  unfold fieldLine
  intro h
  have := congrArg List.length h
  simp [List.length_append, show (b!": ").length = 2 from rfl] at this

theorem hrun_accept (prof : Profile) {fs : List (Bytes × Bytes)} (h : ∀ f ∈ fs, FieldText f) (hs : HeaderMap) (n : Nat)
    {ls : List Nat} (hls : ∀ x ∈ ls, (fieldLines fs).length + 2 ≤ x) (as : List Atom) :
    hrun prof ⟨[], hs, n⟩ (⟨ls, (fieldLines fs ++ CRLF).map .byte ++ as⟩ : AR) =
      (.done ((fieldMap fs).foldl (fun m p => m.addHeader p.1 p.2) hs),
        ⟨decN ((fieldLines fs).length + 2) ls, as⟩) := by
  induction fs generalizing hs n ls with
  | nil =>
    rw [hrun_eq]
    have := line_accept prof (l := []) ⟨by simp, by decide, by simp⟩ (ls := ls) (by simpa [fieldLines] using hls) as
    simp only [fieldLines, List.flatMap_nil, fieldMap]
    rw [this]
    simp
  | cons f fs ih =>
    rw [hrun_eq]
    have hf := h f (by simp)
    have hlen : (fieldLines (f :: fs)).length = (fieldLine f).length + 2 + (fieldLines fs).length := by
      simp [fieldLines, CRLF]; omega
    have e1 : (fieldLines (f :: fs) ++ CRLF).map Atom.byte ++ as =
        (fieldLine f ++ CRLF).map .byte ++ ((fieldLines fs ++ CRLF).map .byte ++ as) := by
      simp [fieldLines]
    rw [e1, line_accept prof hf.line (by intro x hx; have := hls x hx; omega)]
    simp only [fieldLine_ne_nil, if_false, parseHeader_field hf]
    rw [ih (fun x hx => h x (by simp [hx]))]
    · simp only [decN_decN, hlen, fieldMap, List.map_cons, List.foldl_cons, Nat.add_assoc]
    · intro x hx
      simp only [decN, List.mem_map] at hx
      obtain ⟨y, hy, rfl⟩ := hx
      have := hls y hy
      omega

theorem headers_accept (prof : Profile) {fs : List (Bytes × Bytes)} (h : ∀ f ∈ fs, FieldText f)
    (hlen : (fieldLines fs).length + 2 ≤ 4096) (as : List Atom) :
    HeadersParser.parse prof .new (⟨[], (fieldLines fs ++ CRLF).map .byte ++ as⟩ : AR) =
      (.done (HeaderMap.fromPairs (fieldMap fs)), ⟨[], as⟩) := by
  rw [headersParse_eq, sub_le prof (by simp [HeadersParser.new])]
  simp only [HeadersParser.new]
  rw [hrun_accept prof h [] 0 (by intro x hx; simp at hx; subst hx; simpa [maxHeadersSize] using hlen)]
  rfl

/-! ### Bodies -/

theorem takeN_all (b : Bytes) {ls : List Nat} (hls : ∀ x ∈ ls, b.length ≤ x) (as : List Atom) :
    AR.takeN b.length ls (b.map .byte ++ as) = (.ok, b, decN b.length ls, as) := by
  induction b generalizing ls with
  | nil => simp [AR.takeN]
  | cons c t ih =>
    have h0 : 0 ∉ ls := zero_not_mem.2 fun l hl => by have := hls l hl; simp at this; omega
    simp only [List.length_cons, List.map_cons, List.cons_append]
    rw [takeN_byte h0, ih]
    · simp [decN_decN, Nat.add_comm]
    · intro x hx
      simp only [decN, List.mem_map] at hx
      obtain ⟨y, hy, rfl⟩ := hx
      have := hls y hy
      simp at this; omega

theorem bytes_accept {b : Bytes} {n : Nat} (hn : b.length = n) {ls : List Nat} (hls : ∀ x ∈ ls, n ≤ x) (as : List Atom) :
    BytesDeframer.parse ⟨n, []⟩ (⟨ls, b.map .byte ++ as⟩ : AR) = (.done b, ⟨decN n ls, as⟩) := by
  subst hn
  rw [bytesDeframer_eq]
  simp only [List.length_nil, Nat.sub_zero, takeN_all b hls, List.nil_append]

theorem numeral_ascii {radix : Nat} {s : Bytes} {n : Nat} (h : Numeral radix s n) : ∀ c ∈ s, 48 ≤ c.toNat ∧ c.toNat ≤ 122 := by
  have hd : ∀ {c : UInt8} {d : Nat}, IsDigit radix c d → 48 ≤ c.toNat ∧ c.toNat ≤ 122 := by
    rintro c d ⟨-, ⟨h1, h2⟩ | ⟨h1, h2, h3 | h3⟩⟩ <;> omega
  induction h with
  | digit h => intro c hc; simp at hc; subst hc; exact hd h
  | snoc _ h ih =>
    intro c hc
    simp only [List.mem_append, List.mem_singleton] at hc
    rcases hc with hc | rfl
    · exact ih c hc
    · exact hd h

theorem unsigned_ascii {radix : Nat} {s : Bytes} {n : Nat} (h : UnsignedText radix s n) :
    ∀ c ∈ s, 43 ≤ c.toNat ∧ c.toNat ≤ 122 := by
  rcases h with h | ⟨t, rfl, h⟩
  · intro c hc; have := numeral_ascii h c hc; omega
  · intro c hc
    simp only [List.mem_cons] at hc
    rcases hc with rfl | hc
    · decide
    · have := numeral_ascii h c hc; omega

theorem unsigned_line {radix : Nat} {s : Bytes} {n : Nat} (h : UnsignedText radix s n) (hs : s.length ≤ 510) :
    LineText s := by
  refine ⟨fun hl => ?_, utf8_ascii fun c hc => ?_, hs⟩
  · have := unsigned_ascii h LF hl; simp [LF] at this
  · have := unsigned_ascii h c hc
    rw [UInt8.lt_iff_toNat_lt]; simp; omega

theorem parseChunkSize_text {s : Bytes} {n : Nat} (h : UnsignedText 16 s n) (hn : n ≤ 3 * 1024 * 1024) :
    parseChunkSize s = .ok n := by
  unfold parseChunkSize
  rw [(parseUnsigned_iff (by omega)).2 ⟨h, show n < usizeBound by simp [usizeBound]; omega⟩]
  simp only [maxBodySize, gt_iff_lt, Nat.not_lt.2 hn, if_false]

theorem crun_chunk (prof : Profile) {s d : Bytes} (hs : s.length ≤ 510) (hu : UnsignedText 16 s d.length)
    (hd : d.length ≤ 3 * 1024 * 1024) (body : Bytes) {ls : List Nat}
    (hls : ∀ x ∈ ls, s.length + d.length + 4 ≤ x) (as : List Atom) :
    crun prof ⟨body, .size []⟩ (⟨ls, (s ++ CRLF ++ d ++ CRLF).map .byte ++ as⟩ : AR) =
      crun prof ⟨body ++ d, if d.isEmpty then .finished else .size []⟩ ⟨decN (s.length + d.length + 4) ls, as⟩ := by
  have e1 : (s ++ CRLF ++ d ++ CRLF).map Atom.byte ++ as =
      (s ++ CRLF).map .byte ++ (d.map .byte ++ ((([] : Bytes) ++ CRLF).map .byte ++ as)) := by simp
  rw [e1, crun_eq]
  simp only [reduceCtorEq, if_false, chunkStep, sizeState]
  rw [line_accept prof (unsigned_line hu hs) (by intro x hx; have := hls x hx; omega)]
  simp only [Out.bind, parseChunkSize_text hu hd]
  rw [crun_eq]
  simp only [reduceCtorEq, if_false, chunkStep, dataState]
  have mem : ∀ {n m : Nat}, n + m ≤ s.length + d.length + 4 → ∀ x ∈ decN n ls, m ≤ x := by
    intro n m h x hx
    simp only [decN, List.mem_map] at hx
    obtain ⟨y, hy, rfl⟩ := hx
    have := hls y hy; omega
  rw [bytes_accept rfl (mem (by omega))]
  simp only [Out.bind]
  rw [crun_eq]
  simp only [reduceCtorEq, if_false, chunkStep, tailingCrlfState]
  rw [line_accept prof ⟨by simp, by decide, by simp⟩ (by rw [decN_decN]; exact mem (by simp; omega))]
  simp only [Out.bind, ne_eq, not_true_eq_false, if_false, decN_decN, List.length_nil]
  rw [show s.length + 2 + d.length + (0 + 2) = s.length + d.length + 4 by omega]
  cases d.isEmpty <;> rfl

theorem crun_accept (prof : Profile) {cs : List (Bytes × Bytes)} (h : ∀ c ∈ cs, ChunkText c) {last : Bytes}
    (hlast : last.length ≤ 510) (hu : UnsignedText 16 last 0) (body : Bytes) {ls : List Nat}
    (hls : ∀ x ∈ ls, (chunkLines cs).length + last.length + 4 ≤ x) (as : List Atom) :
    crun prof ⟨body, .size []⟩ (⟨ls, (chunkLines cs ++ last ++ CRLF ++ CRLF).map .byte ++ as⟩ : AR) =
      (.done (body ++ chunkData cs), ⟨decN ((chunkLines cs).length + last.length + 4) ls, as⟩) := by
  induction cs generalizing body ls with
  | nil =>
    have := crun_chunk prof (d := []) hlast hu (by simp) body (ls := ls) (by intro x hx; have := hls x hx; simp [chunkLines] at this ⊢; omega) as
    simp only [chunkLines, chunkData, List.flatMap_nil, List.append_nil, List.nil_append, List.length_nil, Nat.add_zero] at this ⊢
    rw [this, crun_eq]
    simp
  | cons c cs ih =>
    have hc := h c (by simp)
    have hlen : (chunkLines (c :: cs)).length = c.1.length + c.2.length + 4 + (chunkLines cs).length := by
      simp [chunkLines, CRLF]; omega
    have e1 : (chunkLines (c :: cs) ++ last ++ CRLF ++ CRLF).map Atom.byte ++ as =
        (c.1 ++ CRLF ++ c.2 ++ CRLF).map .byte ++ ((chunkLines cs ++ last ++ CRLF ++ CRLF).map .byte ++ as) := by
      simp [chunkLines]
    rw [e1, crun_chunk prof hc.short hc.size hc.max body (by intro x hx; have := hls x hx; omega)]
    have hne : c.2.isEmpty = false := by
      cases h2 : c.2 with
      | nil => exact absurd h2 hc.nonEmpty
      | cons => rfl
    simp only [hne, Bool.false_eq_true, if_false]
    rw [ih (fun x hx => h x (by simp [hx]))]
    · simp only [decN_decN, hlen, chunkData, List.flatMap_cons, List.append_assoc]
      rw [show c.1.length + c.2.length + 4 + ((chunkLines cs).length + last.length + 4) =
        c.1.length + c.2.length + 4 + (chunkLines cs).length + last.length + 4 by omega]
    · intro x hx
      simp only [decN, List.mem_map] at hx
      obtain ⟨y, hy, rfl⟩ := hx
      have := hls y hy; omega

/-- The stream after the message is suitable: a body delimited by end of stream is followed by it. -/
def Ended (f : Framing) (as rest : List Atom) : Prop :=
  if f = .untilEof then as = .eof :: rest else as = rest

theorem body_accept (prof : Profile) {ps : List (Header × Bytes)} {b : Bool} {f : Framing}
    (ha : Announces ps b (.ok f)) {fs : List (Bytes × Bytes)} {bw body : Bytes} (hb : BodyText f bw body) (hf : Fits fs f bw)
    {as rest : List Atom} (he : Ended f as rest) :
    BodyParser.parse prof f.parser (⟨[], bw.map .byte ++ as⟩ : AR) = (.done body, ⟨[], rest⟩) := by
  rw [bodyParse_eq]
  obtain ⟨-, hf⟩ := hf
  cases f with
  | length n =>
    obtain ⟨rfl, hn⟩ := hb
    have := ha.length_le
    simp only [Ended, reduceCtorEq, if_false] at he hf
    subst he
    rw [sub_le prof (by simpa [Framing.parser, BodyParser.readSoFar, maxBodySize] using this)]
    simp only [Framing.parser]
    rw [bytes_accept hn (by intro x hx; simp [BodyParser.readSoFar, maxBodySize] at hx; omega)]
    rfl
  | chunked =>
    obtain ⟨cs, last, hcs, hl, hu, rfl, rfl⟩ := hb
    simp only [Ended, reduceCtorEq, if_false] at he hf
    subst he
    rw [sub_le prof (by simp [Framing.parser, BodyParser.readSoFar])]
    simp only [Framing.parser]
    rw [crun_accept prof hcs hl hu]
    · rfl
    · intro x hx
      simp [BodyParser.readSoFar, maxBodySize, CRLF] at hx hf; omega
  | untilEof =>
    cases hb
    simp only [Ended, if_true] at he hf
    subst he
    rw [sub_le prof (by simp [Framing.parser, BodyParser.readSoFar])]
    simp only [Framing.parser]
    have hlims : ∀ l ∈ [maxBodySize - (BodyParser.untilEof []).readSoFar], (bytesOf (bw.map Atom.byte)).length < l := by
      intro l hl
      simp only [List.mem_singleton] at hl
      rw [bytesOf_map, hl]
      simpa [BodyParser.readSoFar, maxBodySize] using hf
    rw [bytesUntilEof_eq, drain_quiet _ _ _ (quiet_map bw) hlims,
      drain_eof (zero_not_mem_decN.2 hlims)]
    simp [bytesOf_map, Out.bind]
  | noBody =>
    obtain ⟨rfl, rfl⟩ := hb
    simp only [Ended, reduceCtorEq, if_false] at he
    subst he
    rw [sub_le prof (by simp [Framing.parser, BodyParser.readSoFar])]
    rfl

theorem message_accept {T : Type} (prof : Profile) {pf : Bytes → Except ParsingError T} {b : Bool} {t : T}
    {line : Bytes} {fs : List (Bytes × Bytes)} {f : Framing} {bw body w : Bytes}
    (hpf : pf line = .ok t) (hm : MessageText line fs b f bw body w) (hfit : Fits fs f bw)
    {as rest : List Atom} (he : Ended f as rest) :
    MessageParser.loop prof pf b 5 (.firstLine []) (⟨[], w.map .byte ++ as⟩ : AR) =
      (.done (t, HeaderMap.fromPairs (fieldMap fs), body), ⟨[], rest⟩) := by
  have e1 : w.map Atom.byte ++ as =
      (line ++ CRLF).map .byte ++ ((fieldLines fs ++ CRLF).map .byte ++ (bw.map .byte ++ as)) := by
    rw [hm.wire]; simp
  rw [e1, messageLoop_step _ _ _ _ _ _ rfl]
  simp only [msgStep, firstLineState]
  rw [line_accept prof hm.lineOk (by simp)]
  simp only [Out.bind, hpf]
  rw [messageLoop_step _ _ _ _ _ _ rfl]
  simp only [msgStep, headersState]
  rw [decN_nil, headers_accept prof hm.fields hfit.1]
  simp only [Out.bind, parser_announces hm.framing]
  rw [messageLoop_step _ _ _ _ _ _ rfl]
  simp only [msgStep, bodyState]
  rw [body_accept prof hm.framing hm.bodyOk hfit he]
  simp only [Out.bind]
  rw [messageLoop_finished]

theorem request_accept (prof : Profile) {q : Request}
    {line : Bytes} {fs : List (Bytes × Bytes)} {f : Framing} {bw w : Bytes}
    (hl : RequestLine q.method q.uri line) (hm : MessageText line fs false f bw q.body w) (hfit : Fits fs f bw)
    (hh : q.headers = HeaderMap.fromPairs (fieldMap fs)) {as rest : List Atom} (he : Ended f as rest) :
    RequestParser.parse prof .new (⟨[], w.map .byte ++ as⟩ : AR) = (.done q, ⟨[], rest⟩) := by
  unfold RequestParser.parse RequestParser.new
  rw [message_accept prof (requestLine_iff.2 hl) hm hfit he]
  cases q
  simp only at hh
  rw [hh]
  rfl

theorem response_accept (prof : Profile) {q : Response}
    {line : Bytes} {fs : List (Bytes × Bytes)} {f : Framing} {bw w : Bytes}
    (hl : StatusLine q.status line) (hm : MessageText line fs true f bw q.body w) (hfit : Fits fs f bw)
    (hh : q.headers = HeaderMap.fromPairs (fieldMap fs)) {as rest : List Atom} (he : Ended f as rest) :
    ResponseParser.parse prof .new (⟨[], w.map .byte ++ as⟩ : AR) = (.done q, ⟨[], rest⟩) := by
  unfold ResponseParser.parse ResponseParser.new
  rw [message_accept prof (statusLine_iff.2 hl) hm hfit he]
  cases q
  simp only at hh
  rw [hh]
  rfl

end Verif
