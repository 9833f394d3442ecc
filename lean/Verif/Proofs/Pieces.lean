import Verif.Proofs.Calls
import Verif.Proofs.Frame

/-!
Bodies arriving in pieces.
-/

namespace Verif

/-- One call on a stream that is stopped by `WouldBlock`. -/
theorem request_pause {prof : Profile} {p p' : RequestParser} {r : Rd} {as rest : List Atom} (hr : r.Ahead as)
    (h : RequestParser.parse prof p (⟨[], as⟩ : AR) = (.io p' .wouldBlock, ⟨[], rest⟩)) :
    ∃ r', r'.Ahead rest ∧ ∀ o r'', Calls (RequestParser.parse prof) p' r' o r'' →
      Calls (RequestParser.parse prof) p r o r'' := by
  obtain ⟨r', h1, h2⟩ := requestParse_of hr h
  exact ⟨r', h2, fun o r'' hc => .pause h1 hc⟩

/-- The same, the call being computed on the part before the pause alone. -/
theorem request_pause_of {prof : Profile} {p p' : RequestParser} {r : Rd} {as X : List Atom}
    (hr : r.Ahead (as ++ .err .wouldBlock :: X)) (hwb : WB ∉ as)
    (h : RequestParser.parse prof p (⟨[], as⟩ : AR) = (.io p' .wouldBlock, ⟨[], []⟩)) :
    ∃ r', r'.Ahead X ∧ ∀ o r'', Calls (RequestParser.parse prof) p' r' o r'' →
      Calls (RequestParser.parse prof) p r o r'' :=
  request_pause hr (request_block X hwb h).2

theorem request_body (prof : Profile) (m : Method) (u : Bytes) (hs : HeaderMap) (bp : BodyParser) (a : AR) :
    RequestParser.parse prof (.body (m, u) hs bp) a =
      ((BodyParser.parse prof bp a).1.bind (.body (m, u) hs) fun b => .done ⟨u, m, hs, b⟩, (BodyParser.parse prof bp a).2) := by
  simp only [RequestParser.parse, messageLoop_step _ _ _ _ _ _ (rfl : (MsgState.body (m, u) hs bp).isFinished = false),
    msgStep, bodyState]
  generalize BodyParser.parse prof bp a = q
  obtain ⟨o, r⟩ := q
  cases o <;> simp [Out.bind, messageLoop_finished]

/-- After the header section the rest is up to the body parser. -/
theorem request_head (prof : Profile) {m : Method} {u line : Bytes} {fs : List (Bytes × Bytes)} {f : Framing}
    (hl : RequestLine m u line) (ht : LineText line) (hfs : ∀ x ∈ fs, FieldText x)
    (hlen : (fieldLines fs).length + 2 ≤ 4096) (ha : Announces (fieldMap fs) false (.ok f)) (as : List Atom) :
    RequestParser.parse prof .new (⟨[], (line ++ CRLF ++ fieldLines fs ++ CRLF).map .byte ++ as⟩ : AR) =
      RequestParser.parse prof (.body (m, u) (HeaderMap.fromPairs (fieldMap fs)) f.parser) ⟨[], as⟩ := by
  rw [request_body]
  have e1 : (line ++ CRLF ++ fieldLines fs ++ CRLF).map Atom.byte ++ as =
      (line ++ CRLF).map .byte ++ ((fieldLines fs ++ CRLF).map .byte ++ as) := by simp
  rw [e1]
  unfold RequestParser.parse RequestParser.new
  rw [messageLoop_step _ _ _ _ _ _ rfl]
  simp only [msgStep, firstLineState]
  rw [line_accept prof ht (by simp)]
  simp only [Out.bind, requestLine_iff.2 hl]
  rw [messageLoop_step _ _ _ _ _ _ rfl]
  simp only [msgStep, headersState]
  rw [decN_nil, headers_accept prof hfs hlen]
  simp only [Out.bind, parser_announces ha]
  rw [messageLoop_step _ _ _ _ _ _ rfl]
  simp only [msgStep, bodyState]
  generalize BodyParser.parse prof f.parser (⟨[], as⟩ : AR) = q
  obtain ⟨o, r⟩ := q
  cases o <;> simp [Out.bind, messageLoop_finished]

/-- In a release build, a header section that was allowed to exceed 4096 bytes has no limit any more. -/
theorem request_headers_wrapped {m : Method} {u : Bytes} {hs : HeaderMap} {n : Nat}
    {fs : List (Bytes × Bytes)} (hn : 4096 < n) (hfs : ∀ x ∈ fs, FieldText x)
    (hlen : (fieldLines fs).length + 2 + n ≤ usizeBound + 4096)
    (ha : BodyParser.new ((fieldMap fs).foldl (fun m p => m.addHeader p.1 p.2) hs) false = .ok .empty) (as : List Atom) :
    RequestParser.parse ⟨false⟩ (.headers (m, u) ⟨[], hs, n⟩) (⟨[], (fieldLines fs ++ CRLF).map .byte ++ as⟩ : AR) =
      (.done ⟨u, m, (fieldMap fs).foldl (fun m p => m.addHeader p.1 p.2) hs, []⟩, ⟨[], as⟩) := by
  unfold RequestParser.parse
  rw [messageLoop_step _ _ _ _ _ _ rfl]
  simp only [msgStep, headersState]
  rw [headersParse_eq]
  have hs' : Profile.sub ⟨false⟩ maxHeadersSize n = some (usizeBound + 4096 - n) := by
    unfold Profile.sub
    rw [if_neg (by simp only [maxHeadersSize]; omega)]; rfl
  rw [hs']
  simp only
  rw [hrun_accept ⟨false⟩ hfs hs n (by intro x hx; simp only [List.mem_singleton] at hx; omega)]
  simp only [Out.bind, ha]
  rw [messageLoop_step _ _ _ _ _ _ rfl]
  simp only [msgStep, bodyState]
  rw [bodyParse_eq, sub_le _ (by simp [BodyParser.readSoFar])]
  simp [Out.bind, messageLoop_finished, decN]

theorem takeN_pause {n : Nat} {b : Bytes} {ls : List Nat} (hn : b.length < n) (hls : ∀ x ∈ ls, b.length < x) (as : List Atom) :
    AR.takeN n ls (b.map .byte ++ .err .wouldBlock :: as) = (.err .wouldBlock, b, decN b.length ls, as) := by
  induction b generalizing ls n with
  | nil =>
    obtain ⟨k, rfl⟩ : ∃ k, n = k + 1 := ⟨n - 1, by simp at hn; omega⟩
    have h0 : 0 ∉ ls := fun h => absurd (hls 0 h) (by simp)
    simp [AR.takeN, h0]
  | cons c t ih =>
    obtain ⟨k, rfl⟩ : ∃ k, n = k + 1 := ⟨n - 1, by simp at hn; omega⟩
    have h0 : 0 ∉ ls := fun h => absurd (hls 0 h) (by simp)
    simp only [List.map_cons, List.cons_append]
    rw [takeN_byte h0, ih (by simpa using hn)]
    · simp [decN_decN, Nat.add_comm]
    · intro x hx
      simp only [decN, List.mem_map] at hx
      obtain ⟨y, hy, rfl⟩ := hx
      have := hls y hy
      simp at this; omega

theorem bytes_pause {n : Nat} {d b : Bytes} {ls : List Nat} (hn : d.length + b.length < n) (hls : ∀ x ∈ ls, b.length < x)
    (as : List Atom) : BytesDeframer.parse ⟨n, d⟩ (⟨ls, b.map .byte ++ .err .wouldBlock :: as⟩ : AR) =
      (.io ⟨n, d ++ b⟩ .wouldBlock, ⟨decN b.length ls, as⟩) := by
  simp only [BytesDeframer.parse, Reader.readInto]
  rw [takeN_pause (by omega) hls]

theorem bytes_finish {n : Nat} {d b : Bytes} {ls : List Nat} (hn : d.length + b.length = n) (hls : ∀ x ∈ ls, b.length ≤ x)
    (as : List Atom) : BytesDeframer.parse ⟨n, d⟩ (⟨ls, b.map .byte ++ as⟩ : AR) =
      (.done (d ++ b), ⟨decN b.length ls, as⟩) := by
  simp only [BytesDeframer.parse, Reader.readInto]
  rw [show n - d.length = b.length by omega, takeN_all b hls]

theorem sized_pause (prof : Profile) {m : Method} {u : Bytes} {hs : HeaderMap} {n : Nat} {d b : Bytes}
    (hn : d.length + b.length < n) (hlim : b.length + n < 3 * 1024 * 1024) (as : List Atom) :
    RequestParser.parse prof (.body (m, u) hs (.withSize ⟨n, d⟩)) (⟨[], b.map .byte ++ .err .wouldBlock :: as⟩ : AR) =
      (.io (.body (m, u) hs (.withSize ⟨n, d ++ b⟩)) .wouldBlock, ⟨[], as⟩) := by
  rw [request_body, bodyParse_eq, sub_le prof (by simp only [BodyParser.readSoFar, maxBodySize]; omega)]
  simp only [BodyParser.readSoFar, maxBodySize]
  rw [bytes_pause hn (by simp; omega)]
  rfl

theorem sized_finish (prof : Profile) {m : Method} {u : Bytes} {hs : HeaderMap} {n : Nat} {d b : Bytes}
    (hn : d.length + b.length = n) (hlim : b.length + n ≤ 3 * 1024 * 1024) (as : List Atom) :
    RequestParser.parse prof (.body (m, u) hs (.withSize ⟨n, d⟩)) (⟨[], b.map .byte ++ as⟩ : AR) =
      (.done ⟨u, m, hs, d ++ b⟩, ⟨[], as⟩) := by
  rw [request_body, bodyParse_eq, sub_le prof (by simp only [BodyParser.readSoFar, maxBodySize]; omega)]
  simp only [BodyParser.readSoFar, maxBodySize]
  rw [bytes_finish hn (by simp; omega)]
  rfl

/-- Pieces of a body with a pause after each, then the last piece. -/
def pieces (xs : List Bytes) (last : Bytes) (rest : List Atom) : List Atom :=
  (xs.flatMap fun x => x.map .byte ++ [.err .wouldBlock]) ++ (last.map .byte ++ rest)

theorem pieces_calls (prof : Profile) {m : Method} {u : Bytes} {hs : HeaderMap} {n : Nat} (xs : List Bytes) (last d : Bytes)
    (hn : d.length + xs.flatten.length + last.length = n) (hl0 : last ≠ [])
    (hx : ∀ x ∈ xs, x.length + n < 3 * 1024 * 1024) (hl : last.length + n ≤ 3 * 1024 * 1024) {r : Rd} {rest : List Atom}
    (hr : r.Ahead (pieces xs last rest)) :
    ∃ r', Calls (RequestParser.parse prof) (.body (m, u) hs (.withSize ⟨n, d⟩)) r
      (.done ⟨u, m, hs, d ++ xs.flatten ++ last⟩) r' ∧ r'.Ahead rest := by
  have hll : 0 < last.length := List.length_pos_iff.2 hl0
  induction xs generalizing d r with
  | nil =>
    obtain ⟨r', h1, h2⟩ := requestParse_of (by simpa [pieces] using hr)
      (sized_finish prof (m := m) (u := u) (hs := hs) (d := d) (b := last) (n := n) (by simpa using hn) hl rest)
    exact ⟨r', .last (by simpa using h1), h2⟩
  | cons x xs ih =>
    simp only [List.flatten_cons, List.length_append] at hn
    have hr' : r.Ahead (x.map .byte ++ .err .wouldBlock :: pieces xs last rest) := by
      simpa [pieces] using hr
    obtain ⟨r1, h1, h2⟩ := request_pause hr' (sized_pause prof (m := m) (u := u) (hs := hs) (d := d) (b := x) (n := n)
      (by omega) (hx x (by simp)) _)
    obtain ⟨r', h3, h4⟩ := ih (d ++ x) (by simp only [List.length_append]; omega) (fun y hy => hx y (by simp [hy])) h1
    refine ⟨r', h2 _ _ ?_, h4⟩
    simpa using h3

end Verif

namespace Verif

theorem maxChunkLine : LineText b!"300000" := ⟨by decide, by decide, by decide⟩

/-- A chunk of the maximal size after one byte of body, interrupted by a pause. -/
theorem big_chunk_pause (prof : Profile) {m : Method} {u : Bytes} {hs : HeaderMap} {x : UInt8} {d : Bytes}
    (hd : d.length + 9 < 3 * 1024 * 1024) (as : List Atom) :
    RequestParser.parse prof (.body (m, u) hs (.chunked ⟨[x], .size []⟩))
        (⟨[], b!"300000\r\n".map .byte ++ (d.map .byte ++ .err .wouldBlock :: as)⟩ : AR) =
      (.io (.body (m, u) hs (.chunked ⟨[x], .data ⟨3 * 1024 * 1024, d⟩⟩)) .wouldBlock, ⟨[], as⟩) := by
  rw [request_body, bodyParse_eq, sub_le prof (by simp [BodyParser.readSoFar, maxBodySize])]
  simp only [BodyParser.readSoFar, maxBodySize, List.length_singleton]
  rw [crun_cont _ _ _ (by simp)]
  simp only [chunkStep, sizeState]
  rw [show b!"300000\r\n" = b!"300000" ++ CRLF by decide, line_accept prof maxChunkLine (by simp)]
  simp only [Out.bind, show parseChunkSize b!"300000" = .ok (3 * 1024 * 1024) from rfl, Out.cont]
  rw [crun_cont _ _ _ (by simp)]
  simp only [chunkStep, dataState]
  rw [bytes_pause (by simp; omega) (by simp; omega)]
  rfl

theorem big_chunk_finish (prof : Profile) {m : Method} {u : Bytes} {hs : HeaderMap} {x : UInt8} {d e : Bytes}
    (hd : d.length + e.length = 3 * 1024 * 1024) (he : e.length + 8 ≤ 3 * 1024 * 1024) (as : List Atom) :
    RequestParser.parse prof (.body (m, u) hs (.chunked ⟨[x], .data ⟨3 * 1024 * 1024, d⟩⟩))
        (⟨[], e.map .byte ++ (b!"\r\n0\r\n\r\n".map .byte ++ as)⟩ : AR) =
      (.done ⟨u, m, hs, x :: (d ++ e)⟩, ⟨[], as⟩) := by
  have hne : (d ++ e).isEmpty = false := by
    cases h : d ++ e with
    | nil =>
      have := congrArg List.length h
      simp only [List.length_append, List.length_nil] at this
      omega
    | cons => rfl
  rw [request_body, bodyParse_eq, sub_le prof (by simp [BodyParser.readSoFar, maxBodySize])]
  simp only [BodyParser.readSoFar, maxBodySize, List.length_singleton]
  rw [crun_cont _ _ _ (by simp)]
  simp only [chunkStep, dataState]
  rw [bytes_finish hd (by simp; omega)]
  simp only [Out.bind, Out.cont, hne]
  rw [crun_cont _ _ _ (by simp)]
  simp only [chunkStep, tailingCrlfState]
  rw [show b!"\r\n0\r\n\r\n".map Atom.byte ++ as = ([] ++ CRLF).map .byte ++ (b!"0\r\n\r\n".map .byte ++ as) by rfl,
    line_accept prof ⟨by decide, by decide, by decide⟩ (by simp; omega)]
  simp only [Out.bind, ne_eq, not_true_eq_false, if_false, Bool.false_eq_true, Out.cont]
  rw [show b!"0\r\n\r\n".map Atom.byte ++ as = (chunkLines [] ++ b!"0" ++ CRLF ++ CRLF).map .byte ++ as by rfl,
    crun_accept prof (by simp) (by decide) (.inl (.digit (d := 0) ⟨by decide, .inl ⟨by decide, by decide⟩⟩)) _ (by simp [chunkLines]; omega)]
  simp [chunkData, decN]

theorem crlf_wb (prof : Profile) {ls : List Nat} (hls : 0 ∉ ls) (as : List Atom) :
    CrlfLineParser.parse prof [] (⟨ls, .err .wouldBlock :: as⟩ : AR) = (.io [] .wouldBlock, ⟨ls, as⟩) := by
  rw [crlf_eq prof [] 512 (by rw [sub_le prof (by simp [maxLineSize])]; rfl)]
  have : (0 : Nat) ∉ 512 :: ls := by simpa using hls
  have hs : AR.scan LF (512 :: ls) (.err .wouldBlock :: as) = (.err .wouldBlock, [], 512 :: ls, as) := by
    simp [AR.scan, this]
  rw [hs]
  rfl

/-- As `big_chunk_finish`, but with a pause before the last CRLF. -/
theorem big_chunk_over (prof : Profile) {m : Method} {u : Bytes} {hs : HeaderMap} {x : UInt8} {d e : Bytes}
    (hd : d.length + e.length = 3 * 1024 * 1024) (he : e.length + 8 ≤ 3 * 1024 * 1024) (as : List Atom) :
    RequestParser.parse prof (.body (m, u) hs (.chunked ⟨[x], .data ⟨3 * 1024 * 1024, d⟩⟩))
        (⟨[], e.map .byte ++ (.err .wouldBlock :: as)⟩ : AR) =
      (.io (.body (m, u) hs (.chunked ⟨x :: (d ++ e), .tailingCrlf [] false⟩)) .wouldBlock, ⟨[], as⟩) := by
  have hne : (d ++ e).isEmpty = false := by
    cases h : d ++ e with
    | nil =>
      have := congrArg List.length h
      simp only [List.length_append, List.length_nil] at this
      omega
    | cons => rfl
  rw [request_body, bodyParse_eq, sub_le prof (by simp [BodyParser.readSoFar, maxBodySize])]
  simp only [BodyParser.readSoFar, maxBodySize, List.length_singleton]
  rw [crun_cont _ _ _ (by simp)]
  simp only [chunkStep, dataState]
  rw [bytes_finish hd (by simp; omega)]
  simp only [Out.bind, Out.cont, hne]
  rw [crun_cont _ _ _ (by simp)]
  simp only [chunkStep, tailingCrlfState]
  rw [crlf_wb prof (by simp [decN]; omega)]
  rfl

theorem body_over {m : Method} {u : Bytes} {hs : HeaderMap} {p : BodyParser} (h : 3 * 1024 * 1024 < p.readSoFar)
    (as : List Atom) : RequestParser.parse ⟨true⟩ (.body (m, u) hs p) (⟨[], as⟩ : AR) = (.panic, ⟨[], as⟩) := by
  rw [request_body, bodyParse_eq]
  have : Profile.sub ⟨true⟩ maxBodySize p.readSoFar = none := by
    unfold Profile.sub
    rw [if_neg (by simp only [maxBodySize]; omega)]; rfl
  rw [this]
  rfl

end Verif
