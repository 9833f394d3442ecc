import Verif.Proofs.Pieces
import Verif.Proofs.Short
import Verif.Props.Message

/-!
C08, C09 (chunked bodies), C12 to C16 (limits and panics).
-/

namespace Verif

/-- The body parser at the start of a chunked body. -/
def chunkedStart : BodyParser := .chunked ⟨[], .size []⟩

theorem bodyParse_ahead {prof : Profile} {p : BodyParser} {r : Rd} {as : List Atom} (h : r.Ahead as) :
    BodyParser.parse prof p (⟨[], as⟩ : AR) = ((BodyParser.parse prof p r).1, (BodyParser.parse prof p r).2.abs) := by
  rw [← h.abs, bodyParse_abs]; rfl

theorem bodyParse_of {prof : Profile} {p : BodyParser} {r : Rd} {as rest : List Atom} (h : r.Ahead as)
    {o : Out BodyParser Bytes} (hp : BodyParser.parse prof p (⟨[], as⟩ : AR) = (o, ⟨[], rest⟩)) :
    ∃ r', BodyParser.parse prof p r = (o, r') ∧ r'.Ahead rest := by
  rw [bodyParse_ahead h] at hp
  simp only [Prod.mk.injEq] at hp
  exact ⟨_, Prod.ext hp.1 rfl, Rd.ahead_abs hp.2⟩

/-! ## C08 -/

/-- C08: a chunked coding of at most 3 MiB decodes to the data of its chunks; what follows is left. -/
theorem C08_chunked_decodes (prof : Profile) {w body : Bytes} (h : ChunkedText w body) (hw : w.length ≤ 3 * 1024 * 1024)
    {r : Rd} {rest : List Atom} (hr : r.Ahead (w.map .byte ++ rest)) :
    ∃ r', BodyParser.parse prof chunkedStart r = (.done body, r') ∧ r'.Ahead rest := by
  have ha : Announces [(Header.transferEncoding, b!"chunked")] false (.ok .chunked) :=
    .chunked (v := b!"chunked") (by simp; decide) (by decide) ⟨[], [], by decide⟩
  exact bodyParse_of hr (body_accept prof ha (f := .chunked) (fs := []) h ⟨by decide, hw⟩ (by simp [Ended]))

/-- The shortest instance of `ChunkedText`, and one with CRLF inside the data and an odd spelling of the
size. -/
example : ChunkedText b!"0\r\n\r\n" [] :=
  ⟨[], b!"0", by simp, by decide, .inl (.digit (d := 0) ⟨by decide, .inl ⟨by decide, by decide⟩⟩), by decide, by decide⟩

example : ChunkedText b!"+02\r\n\r\n\r\n0\r\n\r\n" b!"\r\n" := by
  have hd : ∀ d, d < 10 → ∀ c : UInt8, c.toNat = 48 + d → IsDigit 16 c d := fun d hd c hc => ⟨by omega, .inl ⟨hd, hc⟩⟩
  refine ⟨[(b!"+02", b!"\r\n")], b!"0", ?_, by decide, .inl (.digit (hd 0 (by decide) _ (by decide))), by decide, by decide⟩
  intro c hc
  simp only [List.mem_singleton] at hc
  subst hc
  exact ⟨by decide, .inr ⟨b!"02", rfl, .snoc (s := b!"0") (n := 0) (.digit (hd 0 (by decide) _ (by decide)))
    (hd 2 (by decide) 50 (by decide))⟩, by decide, by decide⟩

/-! ## C09 -/

/-- C09 without pauses: what the chunked parser accepts in one call is a chunked coding of the body. (For
pauses see the next theorems.) -/
theorem C09_chunked_sound_partial {prof : Profile} {r r' : Rd} {body : Bytes} (hl : r.lims = [])
    (h : BodyParser.parse prof chunkedStart r = (.done body, r')) :
    ∃ pre, r.src.atoms = pre ++ r'.src.atoms ∧ Quiet pre ∧ ChunkedText (bytesOf pre) body := by
  have ha := bodyParse_ahead (prof := prof) (p := chunkedStart) (Rd.ahead_self hl)
  rw [h] at ha
  have hst : BodySt .chunked chunkedStart [] := .chunked (ChunkSt.size (cs := []) (line := []) nofun .nil)
  obtain ⟨pre, hc, he, hb, -⟩ := (body_run hst ha).1 body rfl
  exact ⟨pre, hc.atoms, by simpa [Ends] using he, hb⟩

/-- C09 is false when reading pauses: a byte that is no UTF-8 between chunk data and CRLF is dropped if a
pause follows it. The bytes consumed are no chunked coding of anything. -/
theorem C09_lost_bytes_false (prof : Profile) : ∃ a b body : Bytes,
    (∀ r : Rd, r.Ahead (a.map .byte ++ .err .wouldBlock :: b.map .byte) →
      ∃ r', Calls (BodyParser.parse prof) chunkedStart r (.done body) r' ∧ r'.Ahead []) ∧
    ∀ body', ¬ ChunkedText (a ++ b) body' := by
  refine ⟨b!"1\r\nx" ++ [0xA9], b!"\r\n0\r\n\r\n", b!"x", ?_, ?_⟩
  · intro r hr
    exact calls_of (bodyParse_abs prof) 1 hr (by rcases prof with ⟨_ | _⟩ <;> decide +kernel)
  · intro body' h
    obtain ⟨r', h1, -⟩ := C08_chunked_decodes ⟨true⟩ h (by decide)
      (r := Rd.sample [.data (b!"1\r\nx" ++ [0xA9] ++ b!"\r\n0\r\n\r\n")]) (rest := []) ⟨rfl, rfl⟩
    have h2 := congrArg Prod.fst h1
    have h3 : (BodyParser.parse ⟨true⟩ chunkedStart
      (Rd.sample [.data (b!"1\r\nx" ++ [0xA9] ++ b!"\r\n0\r\n\r\n")])).1 = .perr .invalidUtf8 := by decide +kernel
    rw [h3] at h2
    cases h2

theorem bodyCalls_run {prof : Profile} {f : Framing} {p : BodyParser} {c : Bytes} {r r' : Rd}
    {o : Out BodyParser Bytes} (h : Calls (BodyParser.parse prof) p r o r') (hp : BodySt f p c) (hl : r.lims = []) :
    ∃ (ps : List Part) (p1 : BodyParser) (r1 : Rd), r.src.atoms = taken ps ++ r1.src.atoms ∧
      r1.lims = [] ∧ BodySt f p1 (c ++ kept ps) ∧ BodyParser.parse prof p1 r1 = (o, r') := by
  induction h generalizing c with
  | @last p r r' o h => exact ⟨[], p, r, rfl, hl, by simpa [kept] using hp, h⟩
  | @pause p p' r r' r'' o h _ ih =>
    have ha := bodyParse_ahead (prof := prof) (p := p) (Rd.ahead_self hl)
    rw [h] at ha
    obtain ⟨pre, k, d, hc, hk, hd, hst, hlf, -⟩ := (body_run hp ha).2 p' _ rfl (by decide)
    have hl' : r'.lims = [] := by have := hc.lims; simpa [Rd.abs] using this
    obtain ⟨ps, p1, r1, e1, e2, e3, e4⟩ := ih hst hl'
    refine ⟨⟨pre, k, d, hk, hd, hlf⟩ :: ps, p1, r1, ?_, e2, ?_, e4⟩
    · have := hc.atoms
      simp only [Rd.abs] at this
      rw [this, e1]; simp [taken]
    · simpa [kept] using e3

/-- C09 with pauses (partial: of each call, bytes after the last line end are lost if they are not UTF-8
and no chunk data): the bytes not lost are a chunked coding of the body. -/
theorem C09_resumed_partial {prof : Profile} {r r' : Rd} {body : Bytes} (hl : r.lims = [])
    (h : Calls (BodyParser.parse prof) chunkedStart r (.done body) r') :
    ∃ parts : List Part, r.src.atoms = parts.flatMap Part.taken ++ r'.src.atoms ∧
      ChunkedText (parts.flatMap Part.kept) body := by
  have hst : BodySt .chunked chunkedStart [] := .chunked (ChunkSt.size (cs := []) (line := []) nofun .nil)
  obtain ⟨ps, p1, r1, e1, e2, e3, e4⟩ := bodyCalls_run h hst hl
  have ha := bodyParse_ahead (prof := prof) (p := p1) (Rd.ahead_self e2)
  rw [e4] at ha
  obtain ⟨pre, hc, -, hb, -⟩ := (body_run e3 ha).1 body rfl
  refine ⟨ps ++ [.whole pre], ?_, ?_⟩
  · have := hc.atoms
    simp only [Rd.abs] at this
    rw [e1, this]; simp [taken, Part.whole]
  · simpa [kept, Part.whole, BodyText] using hb

example : (BodyParser.parse ⟨true⟩ chunkedStart (Rd.sample [.data b!"1\r\nx\r\n0\r\n\r\n"])).1 = .done b!"x" := by
  decide +kernel

/-! ## C12 -/

/-- C12: however the bytes arrive and whatever errors the parser is resumed after, it never keeps more than
512 bytes of an unfinished line. -/
theorem C12_held_line {prof : Profile} {r r' : Rd} {p : RequestParser}
    (h : Resumed (RequestParser.parse prof) .new r p r') : (heldLine p).length ≤ 512 := by
  suffices ∀ p₀ : RequestParser, p₀.line.length ≤ 512 → Resumed (RequestParser.parse prof) p₀ r p r' →
      p.line.length ≤ 512 by
    rw [heldLine_eq]; exact this .new (by simp [RequestParser.new, MsgState.line]) h
  intro p₀ h₀ hres
  clear h
  induction hres with
  | refl => exact h₀
  | @call p p' p'' r r' r'' e h _ ih =>
    refine ih (request_short h₀ (r := r.abs) (r' := r'.abs) (e := e) (prof := prof) ?_)
    rw [requestParse_abs, h]; rfl

/-- C12 for responses. -/
theorem C12_held_line_response {prof : Profile} {r r' : Rd} {p : ResponseParser}
    (h : Resumed (ResponseParser.parse prof) .new r p r') : (heldLine p).length ≤ 512 := by
  suffices ∀ p₀ : ResponseParser, p₀.line.length ≤ 512 → Resumed (ResponseParser.parse prof) p₀ r p r' →
      p.line.length ≤ 512 by
    rw [heldLine_eq]; exact this .new (by simp [ResponseParser.new, MsgState.line]) h
  intro p₀ h₀ hres
  clear h
  induction hres with
  | refl => exact h₀
  | @call p p' p'' r r' r'' e h _ ih =>
    refine ih (response_short h₀ (r := r.abs) (r' := r'.abs) (e := e) (prof := prof) ?_)
    rw [responseParse_abs, h]; rfl

/-- C12: every line of an accepted request, read in any number of calls, has at most 510 bytes before its
CRLF: the first line, the header lines, and the size lines of a chunked body. -/
theorem C12_accepted_lines {prof : Profile} {r r' : Rd} {q : Request} (hl : r.lims = [])
    (h : Calls (RequestParser.parse prof) .new r (.done q) r') :
    ∃ (parts : List Part) (line : Bytes) (fs : List (Bytes × Bytes)) (bw : Bytes),
      r.src.atoms = parts.flatMap Part.taken ++ r'.src.atoms ∧
      parts.flatMap Part.kept = line ++ CRLF ++ fieldLines fs ++ CRLF ++ bw ∧
      line.length ≤ 510 ∧ (∀ f ∈ fs, (fieldLine f).length ≤ 510) ∧
      (bw = [] ∨ bw = q.body ∨ ∃ cs last, bw = chunkLines cs ++ last ++ CRLF ++ CRLF ∧ last.length ≤ 510 ∧
        ∀ c ∈ cs, c.1.length ≤ 510) := by
  obtain ⟨ps, line, fs, f, bw, h1, -, -, h5, -⟩ := requestCalls_done h hl
  refine ⟨ps, line, fs, bw, h1, h5.wire, h5.lineOk.short, fun x hx => (h5.fields x hx).line.short, ?_⟩
  have hb := h5.bodyOk
  cases f with
  | length n => exact .inr (.inl hb.1)
  | untilEof => exact .inr (.inl hb)
  | noBody => exact .inl hb.1
  | chunked =>
    obtain ⟨cs, last, hcs, hlast, -, hw, -⟩ := hb
    exact .inr (.inr ⟨cs, last, hw, hlast, fun c hc => (hcs c hc).short⟩)

/-- C12: a line of at most 510 bytes of text and its CRLF are accepted by the line parser, and nothing
after them is read. -/
theorem C12_line_accepted (prof : Profile) {l : Bytes} (h : LineText l) {r : Rd} {rest : List Atom}
    (hr : r.Ahead ((l ++ CRLF).map .byte ++ rest)) :
    ∃ r', CrlfLineParser.parse prof [] r = (.done l, r') ∧ r'.Ahead rest := by
  have h1 := line_accept prof h (ls := []) (by simp) rest
  have h2 := crlfLine_abs prof [] r
  rw [hr.abs, h1] at h2
  simp only [absOut, Prod.mk.injEq, decN_nil] at h2
  exact ⟨_, Prod.ext h2.1.symm rfl, Rd.ahead_abs h2.2.symm⟩

/-- C12: a longer line is never accepted. -/
theorem C12_line_sound {prof : Profile} {r r' : Rd} {l : Bytes} (h : CrlfLineParser.parse prof [] r = (.done l, r')) :
    LineText l := by
  have h2 := crlfLine_abs prof [] r
  rw [h] at h2
  obtain ⟨_, _, ht, _⟩ := (crlf_run .nil h2).1 l rfl
  exact ht

example : LineText (List.replicate 510 97) :=
  ⟨by decide +kernel, by decide +kernel, by decide +kernel⟩

/-! ## C13 -/

/-- `n` header lines `a: b`. -/
def manyFields (n : Nat) : List (Bytes × Bytes) := List.replicate n (b!"a", b!"b")

/-- C13 is false: a header section of 4142 bytes is accepted if reading pauses once, because the bytes of
the line ends are not counted across calls. -/
theorem C13_paused_false (prof : Profile) : ∃ q : Request, 4096 < (fieldLines (manyFields 690)).length + 2 ∧
    ∀ r : Rd, r.Ahead ((b!"GET / HTTP/1.1\r\n" ++ fieldLines (manyFields 600)).map .byte ++
        .err .wouldBlock :: (fieldLines (manyFields 90) ++ CRLF).map .byte) →
      ∃ r', Calls (RequestParser.parse prof) .new r (.done q) r' ∧ r'.Ahead [] := by
  refine ⟨⟨b!"/", .get, [(Header.ofStr b!"a", List.replicate 690 b!"b")], []⟩, by decide +kernel, ?_⟩
  intro r hr
  exact calls_of (requestParse_abs prof) 1 hr (by rcases prof with ⟨_ | _⟩ <;> decide +kernel)

end Verif

namespace Verif

/-- The header lines of the next theorem: eight long ones and one of 182 bytes arriving in two parts. -/
def longFields : List (Bytes × Bytes) := List.replicate 8 (b!"a", List.replicate 497 120)

theorem field_ab : FieldText (b!"a", b!"b") :=
  ⟨⟨by decide, by decide, by decide⟩, by
    rintro ⟨x, y, h⟩
    have := congrArg List.length h
    simp at this; omega⟩

theorem manyFields_length (n : Nat) : (fieldLines (manyFields n)).length = 6 * n := by
  induction n with
  | zero => rfl
  | succ n ih =>
    simp only [fieldLines, manyFields, List.replicate_succ, List.flatMap_cons, List.length_append] at ih ⊢
    rw [ih]; simp [fieldLine, CRLF]; omega

/-- The calls of the next theorem. -/
theorem release_steps (n : Nat) (hn : n ≤ 2 ^ 60) : ∃ (p₁ p₂ p₃ : RequestParser) (q : Request),
    RequestParser.parse ⟨false⟩ .new (⟨[], (b!"GET / HTTP/1.1\r\n" ++ fieldLines longFields).map .byte⟩ : AR) = (.io p₁ .wouldBlock, ⟨[], []⟩) ∧
    RequestParser.parse ⟨false⟩ p₁ (⟨[], (b!"a: " ++ List.replicate 87 120).map .byte⟩ : AR) = (.io p₂ .wouldBlock, ⟨[], []⟩) ∧
    RequestParser.parse ⟨false⟩ p₂ (⟨[], (List.replicate 90 120 ++ CRLF).map .byte⟩ : AR) = (.io p₃ .wouldBlock, ⟨[], []⟩) ∧
    RequestParser.parse ⟨false⟩ p₃ (⟨[], (fieldLines (manyFields n) ++ CRLF).map .byte⟩ : AR) = (.done q, ⟨[], []⟩) := by
  have hlen := manyFields_length n
  let hs : HeaderMap := [(Header.ofStr b!"a", List.replicate 8 (List.replicate 497 120) ++ [List.replicate 177 120])]
  have step1 : RequestParser.parse ⟨false⟩ .new
      (⟨[], (b!"GET / HTTP/1.1\r\n" ++ fieldLines longFields).map .byte⟩ : AR) =
      (.io (.headers (.get, b!"/") ⟨[], [(Header.ofStr b!"a", List.replicate 8 (List.replicate 497 120))], 4000⟩) .wouldBlock,
        ⟨[], []⟩) := by decide +kernel
  have step2 : RequestParser.parse ⟨false⟩
      (.headers (.get, b!"/") ⟨[], [(Header.ofStr b!"a", List.replicate 8 (List.replicate 497 120))], 4000⟩)
      (⟨[], (b!"a: " ++ List.replicate 87 120).map .byte⟩ : AR) =
      (.io (.headers (.get, b!"/") ⟨b!"a: " ++ List.replicate 87 120,
        [(Header.ofStr b!"a", List.replicate 8 (List.replicate 497 120))], 4000⟩) .wouldBlock, ⟨[], []⟩) := by
    decide +kernel
  have step3 : RequestParser.parse ⟨false⟩
      (.headers (.get, b!"/") ⟨b!"a: " ++ List.replicate 87 120,
        [(Header.ofStr b!"a", List.replicate 8 (List.replicate 497 120))], 4000⟩)
      (⟨[], (List.replicate 90 120 ++ CRLF).map .byte⟩ : AR) =
      (.io (.headers (.get, b!"/") ⟨[], hs, 4180⟩) .wouldBlock, ⟨[], []⟩) := by decide +kernel
  have hall : ∀ x ∈ longFields ++ [(b!"a", List.replicate 177 120)] ++ manyFields n, x.1 = b!"a" := by
    intro x hx
    simp only [List.mem_append, List.mem_singleton, longFields, manyFields, List.mem_replicate] at hx
    rcases hx with (⟨-, rfl⟩ | rfl) | ⟨-, rfl⟩ <;> rfl
  have hps : ∀ p ∈ fieldMap (longFields ++ [(b!"a", List.replicate 177 120)] ++ manyFields n), p.1 = Header.ofStr b!"a" := by
    intro p hp
    obtain ⟨x, hx, rfl⟩ := List.mem_map.1 hp
    simp only [hall x hx]
  have ha : Announces (fieldMap (longFields ++ [(b!"a", List.replicate 177 120)] ++ manyFields n)) false (.ok .noBody) := by
    refine .none (fun p hp => by rw [hps p hp]; decide) ?_
    intro v hv
    exfalso
    cases hf : (fieldMap (longFields ++ [(b!"a", List.replicate 177 120)] ++ manyFields n)).find?
        fun p => p.1 = Header.transferEncoding with
    | none => rw [hf] at hv; cases hv
    | some x =>
      have h1 := List.find?_some hf
      rw [hps x (List.mem_of_find?_eq_some hf)] at h1
      exact absurd h1 (by decide)
  have hfold : HeaderMap.fromPairs (fieldMap (longFields ++ [(b!"a", List.replicate 177 120)] ++ manyFields n)) =
      (fieldMap (manyFields n)).foldl (fun m p => m.addHeader p.1 p.2) hs := by
    rw [fieldMap, List.map_append, HeaderMap.fromPairs, List.foldl_append]
    have : List.foldl (fun (m : HeaderMap) p => m.addHeader p.1 p.2) [] (List.map (fun f => (Header.ofStr f.1, f.2))
      (longFields ++ [(b!"a", List.replicate 177 120)])) = hs := by decide +kernel
    exact congrArg (fun z => List.foldl (fun (m : HeaderMap) (p : Header × Bytes) => m.addHeader p.1 p.2) z _) this
  have hb := parser_announces ha
  rw [hfold] at hb
  have hend := request_headers_wrapped (m := .get) (u := b!"/") (hs := hs) (n := 4180) (fs := manyFields n) (by decide)
    (by intro x hx; rw [(List.mem_replicate.1 hx).2]; exact field_ab) (by rw [hlen]; simp only [usizeBound]; omega) hb []
  rw [List.append_nil] at hend
  exact ⟨_, _, _, _, step1, step2, step3, hend⟩

/-- C13 is false without bound in release builds: once a section has been allowed to exceed 4096 bytes,
the limit of the next call wraps around and any number of further header lines is accepted. -/
theorem C13_release_unbounded_false (n : Nat) (hn : n ≤ 2 ^ 60) : ∃ q : Request,
    n ≤ (fieldLines (manyFields n)).length ∧
    ∀ r : Rd, r.Ahead ((b!"GET / HTTP/1.1\r\n" ++ fieldLines longFields).map .byte ++
        .err .wouldBlock :: ((b!"a: " ++ List.replicate 87 120).map .byte ++
        .err .wouldBlock :: ((List.replicate 90 120 ++ CRLF).map .byte ++
        .err .wouldBlock :: ((fieldLines (manyFields n) ++ CRLF).map .byte)))) →
      ∃ r', Calls (RequestParser.parse ⟨false⟩) .new r (.done q) r' ∧ r'.Ahead [] := by
  obtain ⟨p1, p2, p3, q, step1, step2, step3, hend⟩ := release_steps n hn
  refine ⟨q, by rw [manyFields_length]; omega, ?_⟩
  intro r hr
  obtain ⟨r1, hr1, h1⟩ := request_pause_of hr (by decide +kernel) step1
  obtain ⟨r2, hr2, h2⟩ := request_pause_of hr1 (by decide +kernel) step2
  obtain ⟨r3, hr3, h3⟩ := request_pause_of hr2 (by decide +kernel) step3
  obtain ⟨r4, h4, hr4⟩ := requestParse_of hr3 hend
  exact ⟨r4, h1 _ _ (h2 _ _ (h3 _ _ (.last h4))), hr4⟩

/-- C13 in one call (partial: no pauses): the header section of an accepted request has at most 4096 bytes. -/
theorem C13_single_call_partial {prof : Profile} {r r' : Rd} {q : Request} (hl : r.lims = [])
    (h : RequestParser.parse prof .new r = (.done q, r')) :
    ∃ pre line fs bw, r.src.atoms = pre ++ r'.src.atoms ∧ LF ∉ line ∧ (∀ f ∈ fs, FieldText f) ∧
      bytesOf pre = line ++ CRLF ++ (fieldLines fs ++ CRLF) ++ bw ∧ (fieldLines fs ++ CRLF).length ≤ 4096 := by
  obtain ⟨pre, line, fs, f, bw, h1, -, -, -, h5, -, h7⟩ := requestOne_done h hl
  refine ⟨pre, line, fs, bw, h1, h5.lineOk.noLf, h5.fields, by simp [h5.wire], ?_⟩
  simpa [CRLF] using (h7.1 rfl).1

/-- C13 for responses, which the client always reads in one call. -/
theorem C13_response_partial {prof : Profile} {r r' : Rd} {q : Response} (hl : r.lims = [])
    (h : ResponseParser.parse prof .new r = (.done q, r')) :
    ∃ pre line fs bw, r.src.atoms = pre ++ r'.src.atoms ∧ LF ∉ line ∧ (∀ f ∈ fs, FieldText f) ∧
      bytesOf pre = line ++ CRLF ++ (fieldLines fs ++ CRLF) ++ bw ∧ (fieldLines fs ++ CRLF).length ≤ 4096 := by
  obtain ⟨pre, line, fs, f, bw, h1, -, -, -, h5, -, h7⟩ := responseOne_done h hl
  refine ⟨pre, line, fs, bw, h1, h5.lineOk.noLf, h5.fields, by simp [h5.wire], ?_⟩
  simpa [CRLF] using (h7.1 rfl).1

/-- C13 with any pauses in debug builds (partial: a weaker bound): at most 8704 bytes that count. -/
theorem C13_debug_partial {r r' : Rd} {q : Request} (hl : r.lims = [])
    (h : Calls (RequestParser.parse ⟨true⟩) .new r (.done q) r') :
    ∃ (parts : List Part) (line : Bytes) (fs : List (Bytes × Bytes)) (bw : Bytes),
      r.src.atoms = parts.flatMap Part.taken ++ r'.src.atoms ∧ LF ∉ line ∧ (∀ f ∈ fs, FieldText f) ∧
      parts.flatMap Part.kept = line ++ CRLF ++ (fieldLines fs ++ CRLF) ++ bw ∧
      (fieldLines fs ++ CRLF).length ≤ 8704 := by
  obtain ⟨ps, line, fs, f, bw, h1, -, -, h5, -, h7⟩ := requestCalls_done h hl
  refine ⟨ps, line, fs, bw, h1, h5.lineOk.noLf, h5.fields, by simpa [kept] using h5.wire, ?_⟩
  simpa [CRLF] using (h7.2.2.1 rfl).1

/-! ## C14 -/

/-- The head of the request of the next theorem. -/
def chunkedHead : Bytes := b!"POST / HTTP/1.1\r\nTransfer-Encoding: chunked\r\n\r\n"

theorem chunkedHead_calls (prof : Profile) {r : Rd} {as : List Atom}
    (hr : r.Ahead ((chunkedHead ++ b!"1\r\nx\r\n").map .byte ++ .err .wouldBlock :: as)) :
    ∃ r', r'.Ahead as ∧ ∀ o r'', Calls (RequestParser.parse prof) (.body (.post, b!"/")
        (HeaderMap.fromPairs [(Header.transferEncoding, b!"chunked")]) (.chunked ⟨b!"x", .size []⟩)) r' o r'' →
      Calls (RequestParser.parse prof) .new r o r'' :=
  request_pause_of hr (by decide) (by rcases prof with ⟨_ | _⟩ <;> decide +kernel)

/-- C14 is false for chunked bodies: one byte of body, then a chunk of 3 MiB arriving in two parts `d` and
`e` of at least ten bytes each, with a pause before each, is accepted, in debug and release builds. -/
theorem C14_chunked_false (prof : Profile) (d e : Bytes) (hde : d.length + e.length = 3 * 1024 * 1024)
    (hd : 10 ≤ d.length) (he : 10 ≤ e.length) : ∃ q : Request, 3 * 1024 * 1024 < q.body.length ∧
    ∀ r : Rd, r.Ahead ((chunkedHead ++ b!"1\r\nx\r\n").map .byte ++ .err .wouldBlock ::
        ((b!"300000\r\n" ++ d).map .byte ++ .err .wouldBlock :: (e ++ b!"\r\n0\r\n\r\n").map .byte)) →
      ∃ r', Calls (RequestParser.parse prof) .new r (.done q) r' ∧ r'.Ahead [] := by
  refine ⟨⟨b!"/", .post, HeaderMap.fromPairs [(Header.transferEncoding, b!"chunked")], 120 :: (d ++ e)⟩, ?_, ?_⟩
  · simp only [List.length_cons, List.length_append]; omega
  intro r hr
  obtain ⟨r1, hr1, h1⟩ := chunkedHead_calls prof hr
  obtain ⟨r2, hr2, h2⟩ := request_pause (by simpa using hr1) (big_chunk_pause prof (m := .post) (u := b!"/")
    (hs := HeaderMap.fromPairs [(Header.transferEncoding, b!"chunked")]) (x := 120) (d := d) (by omega) _)
  obtain ⟨r3, h3, hr3⟩ := requestParse_of (by simpa using hr2) (big_chunk_finish prof (m := .post) (u := b!"/")
    (hs := HeaderMap.fromPairs [(Header.transferEncoding, b!"chunked")]) (x := 120) (d := d) (e := e) hde (by omega) [])
  exact ⟨r3, h1 _ _ (h2 _ _ (.last h3)), hr3⟩

example : ∃ d e : Bytes, d.length + e.length = 3 * 1024 * 1024 ∧ 10 ≤ d.length ∧ 10 ≤ e.length :=
  ⟨List.replicate 10 0, List.replicate (3 * 1024 * 1024 - 10) 0, by rw [List.length_replicate, List.length_replicate],
    by rw [List.length_replicate]; omega, by rw [List.length_replicate]; omega⟩

theorem chunkData_length (cs : List (Bytes × Bytes)) : (chunkData cs).length ≤ (chunkLines cs).length := by
  induction cs with
  | nil => simp [chunkData]
  | cons c cs ih =>
    simp only [chunkData, chunkLines, List.flatMap_cons, List.length_append] at ih ⊢
    omega

/-- A chunked coding is longer than the data. -/
theorem chunked_length {w body : Bytes} (h : ChunkedText w body) : body.length ≤ w.length := by
  obtain ⟨cs, last, -, -, -, rfl, rfl⟩ := h
  have := chunkData_length cs
  simp only [List.length_append]
  omega

/-- C14 in one call (partial: no pauses): an accepted request has a body of at most 3 MiB. -/
theorem C14_single_call_partial {prof : Profile} {r r' : Rd} {q : Request} (hl : r.lims = [])
    (h : RequestParser.parse prof .new r = (.done q, r')) : q.body.length ≤ 3 * 1024 * 1024 := by
  obtain ⟨pre, line, fs, f, bw, -, -, -, -, h5, -, h7⟩ := requestOne_done h hl
  by_cases hf : f = .chunked
  · subst hf
    have hb := h5.bodyOk
    have := (h7.1 rfl).2
    simp only at this
    exact Nat.le_trans (chunked_length hb) this
  · exact h7.2.1 hf

/-- C14 for responses, which the client always reads in one call. -/
theorem C14_response_partial {prof : Profile} {r r' : Rd} {q : Response} (hl : r.lims = [])
    (h : ResponseParser.parse prof .new r = (.done q, r')) : q.body.length ≤ 3 * 1024 * 1024 := by
  obtain ⟨pre, line, fs, f, bw, -, -, -, -, h5, -, h7⟩ := responseOne_done h hl
  by_cases hf : f = .chunked
  · subst hf
    have hb := h5.bodyOk
    have := (h7.1 rfl).2
    simp only at this
    exact Nat.le_trans (chunked_length hb) this
  · exact h7.2.1 hf

theorem Announces.length_of {ps : List (Header × Bytes)} {b : Bool} {f : Framing} (h : Announces ps b (.ok f))
    (hc : (ps.find? fun p => p.1 = Header.contentLength).map Prod.snd ≠ Option.none) : ∃ n, f = .length n := by
  generalize ho : Except.ok f = o at h
  cases h with
  | length => cases ho; exact ⟨_, rfl⟩
  | tooLarge => cases ho
  | badLength => cases ho
  | chunked h1 => exact absurd (by simpa using h1) (by simpa using hc)
  | none h1 => exact absurd (by simpa using h1) (by simpa using hc)

/-- C14 with any pauses (partial: not for chunked bodies): the body of a request with a Content-Length has
less than 3 MiB. -/
theorem C14_length_partial {prof : Profile} {r r' : Rd} {q : Request} (hl : r.lims = [])
    (h : Calls (RequestParser.parse prof) .new r (.done q) r') (hc : q.headers.getFirst Header.contentLength ≠ none) :
    q.body.length < 3 * 1024 * 1024 := by
  obtain ⟨ps, line, fs, f, bw, -, -, -, h5, h6, h7⟩ := requestCalls_done h hl
  rw [h6, C19_first_value] at hc
  obtain ⟨n, rfl⟩ := h5.framing.length_of hc
  have := h7.2.2.2 n rfl
  have hb := h5.bodyOk
  simp only [BodyText] at hb
  omega

/-- C14 with any pauses in debug builds (partial: a weaker bound): at most 6 MiB. -/
theorem C14_debug_partial {r r' : Rd} {q : Request} (hl : r.lims = [])
    (h : Calls (RequestParser.parse ⟨true⟩) .new r (.done q) r') : q.body.length ≤ 6 * 1024 * 1024 := by
  obtain ⟨ps, line, fs, f, bw, -, -, -, -, -, h7⟩ := requestCalls_done h hl
  exact (h7.2.2.1 rfl).2

/-! ## C15 -/

/-- The head of a request with a body of `n` bytes. -/
def sizedHead (n : Nat) : Bytes := b!"POST / HTTP/1.1\r\nContent-Length: " ++ natDec n ++ CRLF ++ CRLF

/-- What `sizedHead` says. -/
theorem sizedHead_text {body : Bytes} (hmax : body.length ≤ 3 * 1024 * 1024) :
    RequestLine .post b!"/" b!"POST / HTTP/1.1" ∧
    MessageText b!"POST / HTTP/1.1" [(b!"Content-Length", natDec body.length)] false (.length body.length) body body
      (sizedHead body.length ++ body) := by
  have hl0 : LineText b!"POST / HTTP/1.1" := ⟨by decide, by decide, by decide⟩
  have hd := numeral_digits (natDec_numeral body.length)
  refine ⟨⟨b!"HTTP/1.1", [], .inr rfl, by decide, .inl rfl, by decide⟩, hl0, ?_, ?_, ⟨rfl, rfl⟩, ?_⟩
  · intro x hx
    simp only [List.mem_singleton] at hx
    subst hx
    have hlen := natDec_length body.length 7 (by omega)
    refine ⟨⟨?_, ?_, ?_⟩, ?_⟩
    · simp only [fieldLine, List.mem_append, not_or]
      refine ⟨⟨by decide, by decide⟩, fun h => ?_⟩
      have := (hd _ h).1
      simp [LF] at this
    · refine utf8_ascii fun c hc => ?_
      simp only [fieldLine, List.mem_append] at hc
      rcases hc with hc | hc
      · have : ∀ c ∈ b!"Content-Length" ++ b!": ", c < 128 := by decide
        exact this c (List.mem_append.2 hc)
      · have := (hd c hc).2
        exact UInt8.lt_iff_toNat_lt.2 (by simp; omega)
    · simp only [fieldLine, List.length_append]; simp; omega
    · rintro ⟨x, y, h⟩
      dsimp only at h
      have : (58 : UInt8) ∈ b!"Content-Length" := by rw [h]; simp
      exact absurd this (by decide)
  · exact .length (v := natDec body.length) (by simp [fieldMap]; decide) (.inl (natDec_numeral _)) hmax
  · simp [sizedHead, fieldLines, fieldLine]

/-- C15, exactly what one call accepts: a request with a Content-Length of `n` is accepted if and only if
twice its length is at most 3 MiB (and the header section fits). -/
theorem C15_single_call_iff (prof : Profile) {line w body : Bytes} {m : Method} {u : Bytes} {fs : List (Bytes × Bytes)}
    {n : Nat} (hl : RequestLine m u line) (hm : MessageText line fs false (.length n) body body w) {r : Rd}
    {rest : List Atom} (hr : r.Ahead (w.map .byte ++ rest)) :
    (∃ q r', RequestParser.parse prof .new r = (.done q, r')) ↔
      (fieldLines fs).length + 2 ≤ 4096 ∧ 2 * n ≤ 3 * 1024 * 1024 := by
  constructor
  · rintro ⟨q, r', h⟩
    obtain ⟨pre, line', fs', f', bw', h1, h2, -, h4, h5, h6, h7⟩ := requestOne_done h hr.1
    rw [hr.2] at h1
    have h8 := congrArg bytesOf h1
    rw [bytesOf_append, bytesOf_append, bytesOf_map] at h8
    obtain ⟨-, rfl, rfl, -⟩ := message_unique hm h5 (by simp) h8
    exact h7.1 rfl
  · intro hf
    obtain ⟨r', h, -⟩ := C04_request_accepted prof (w := w) (q := ⟨u, m, HeaderMap.fromPairs (fieldMap fs), body⟩)
      ⟨line, fs, .length n, body, hl, hm, rfl, hf⟩ hr
    exact ⟨_, r', h⟩

/-- C15 is false: no request with a correct Content-Length of more than half of 3 MiB that is available at
once is accepted. -/
theorem C15_half_false (prof : Profile) {body : Bytes} (h1 : 3 * 1024 * 1024 < 2 * body.length)
    (h2 : body.length ≤ 3 * 1024 * 1024) :
    (∃ q : Request, RequestText (sizedHead body.length ++ body) q ∧ q.body = body) ∧
    ∀ (r : Rd) (rest : List Atom), r.Ahead ((sizedHead body.length ++ body).map .byte ++ rest) →
      ¬ ∃ q r', RequestParser.parse prof .new r = (.done q, r') := by
  obtain ⟨ha, hb⟩ := sizedHead_text h2
  refine ⟨⟨⟨b!"/", .post, _, body⟩, ⟨_, _, _, _, ha, hb, rfl⟩, rfl⟩, fun r rest hr h => ?_⟩
  have := (C15_single_call_iff prof ha hb hr).1 h
  omega

/-- C15 is false: a request with a Content-Length of exactly 3 MiB is never accepted, however its bytes
arrive (here with a body of ASCII bytes). -/
theorem C15_max_false (prof : Profile) {body : Bytes} (h1 : body.length = 3 * 1024 * 1024)
    (h2 : ∀ c ∈ body, c < 128) :
    (∃ q : Request, RequestText (sizedHead body.length ++ body) q ∧ q.body = body) ∧
    ∀ r : Rd, r.lims = [] → bytesOf r.src.atoms = sizedHead body.length ++ body →
      ¬ ∃ q r', Calls (RequestParser.parse prof) .new r (.done q) r' := by
  obtain ⟨ha, hb⟩ := sizedHead_text (body := body) (by omega)
  refine ⟨⟨⟨b!"/", .post, _, body⟩, ⟨_, _, _, _, ha, hb, rfl⟩, rfl⟩, ?_⟩
  rintro r hl hw ⟨q, r', h⟩
  obtain ⟨ps, line, fs, f, bw, e1, -, -, e4, -, e6⟩ := requestCalls_done h hl
  have hasc : ∀ c ∈ sizedHead body.length ++ body, c < 128 := by
    intro c hc
    rw [h1] at hc
    rcases List.mem_append.1 hc with hc | hc
    · exact (by decide +kernel : ∀ c ∈ sizedHead (3 * 1024 * 1024), c < 128) c hc
    · exact h2 c hc
  rw [e1, bytesOf_append] at hw
  rw [bytesOf_taken_ascii (fun c hc => hasc c (by rw [← hw]; simp [hc]))] at e4
  obtain ⟨-, -, rfl, -⟩ := message_unique (a := []) hb e4 (by simp) (by simpa using hw.symm)
  have := e6.2.2.2 _ rfl
  omega

example : ∃ body : Bytes, body.length = 3 * 1024 * 1024 ∧ ∀ c ∈ body, c < 128 :=
  ⟨List.replicate (3 * 1024 * 1024) 0, List.length_replicate, by
    intro c hc; rw [(List.mem_replicate.1 hc).2]; decide⟩

/-- C15 (partial: lengths below 3 MiB, arriving in pieces that are small enough): a request with a correct
Content-Length `n` is accepted if each piece that arrives has less than `3 MiB - n` bytes of the body. -/
theorem C15_pieces_partial (prof : Profile) {line w body last : Bytes} {m : Method} {u : Bytes}
    {fs : List (Bytes × Bytes)} {n : Nat} {xs : List Bytes} (hl : RequestLine m u line)
    (hm : MessageText line fs false (.length n) body body w) (hlen : (fieldLines fs).length + 2 ≤ 4096)
    (hb : body = xs.flatten ++ last) (hne : last ≠ []) (hx : ∀ x ∈ xs, x.length + n < 3 * 1024 * 1024)
    (hlast : last.length + n ≤ 3 * 1024 * 1024) {r : Rd} {rest : List Atom}
    (hr : r.Ahead ((line ++ CRLF ++ fieldLines fs ++ CRLF).map .byte ++
      ((xs.flatMap fun x => x.map .byte ++ [.err .wouldBlock]) ++ (last.map .byte ++ rest)))) :
    ∃ r', Calls (RequestParser.parse prof) .new r
      (.done ⟨u, m, HeaderMap.fromPairs (fieldMap fs), body⟩) r' ∧ r'.Ahead rest := by
  have hh := fun as => request_head prof hl hm.lineOk hm.fields hlen hm.framing as
  have hn : xs.flatten.length + last.length = n := by
    have := hm.bodyOk.2; rw [hb, List.length_append] at this; exact this
  have hll : 0 < last.length := List.length_pos_iff.2 hne
  cases xs with
  | nil =>
    have h1 := sized_finish prof (m := m) (u := u) (hs := HeaderMap.fromPairs (fieldMap fs)) (n := n) (d := [])
      (b := last) (by simpa using hn) hlast rest
    obtain ⟨r', h2, h3⟩ := requestParse_of (by simpa using hr) ((hh _).trans h1)
    exact ⟨r', .last (by rw [hb]; simpa using h2), h3⟩
  | cons x xs =>
    simp only [List.flatten_cons, List.length_append] at hn
    have h1 := sized_pause prof (m := m) (u := u) (hs := HeaderMap.fromPairs (fieldMap fs)) (n := n) (d := [])
      (b := x) (by simp; omega) (hx x (by simp)) (pieces xs last rest)
    obtain ⟨r1, h2, h3⟩ := request_pause (by simpa [pieces] using hr) ((hh _).trans h1)
    obtain ⟨r', h4, h5⟩ := pieces_calls prof (m := m) (u := u) (hs := HeaderMap.fromPairs (fieldMap fs)) (n := n) xs last
      x (by omega) hne (fun y hy => hx y (by simp [hy])) hlast h2
    refine ⟨r', h3 _ _ ?_, h5⟩
    rw [hb]
    simpa using h4

/-- An instance. -/
example : ∃ r', Calls (RequestParser.parse ⟨true⟩) .new (Rd.sample [.data b!"POST / HTTP/1.1\r\nContent-Length: 2\r\n\r\nx",
    .err .wouldBlock, .data b!"y"]) (.done ⟨b!"/", .post, [(Header.contentLength, [b!"2"])], b!"xy"⟩) r' ∧ r'.Ahead [] := by
  refine C15_pieces_partial ⟨true⟩ (line := b!"POST / HTTP/1.1") (fs := [(b!"Content-Length", natDec 2)]) (xs := [b!"x"])
    (last := b!"y") (n := 2) (body := b!"xy") (w := sizedHead 2 ++ b!"xy")
    (sizedHead_text (body := b!"xy") (by simp)).1 (sizedHead_text (body := b!"xy") (by simp)).2 (by decide) rfl (by decide) ?_
    (by decide) ⟨rfl, by decide⟩
  simp

/-! ## C16 -/

theorem chunkSt_length {p : ChunksParser} {c : Bytes} (h : ChunkSt p c) : p.body.length ≤ c.length := by
  cases h with
  | @size cs line => have := chunkData_length cs; simp only [List.length_append]; omega
  | @data cs => have := chunkData_length cs; simp only [List.length_append]; omega
  | @tailing cs => have := chunkData_length cs; simp only [List.length_append]; omega
  | finished h => exact chunked_length h

/-- C16 is false in debug builds: a header line arriving in two parts takes the count of header bytes
beyond 4096, and the next call underflows. -/
theorem C16_headers_false (r : Rd) (hr : r.Ahead ((b!"GET / HTTP/1.1\r\n" ++ fieldLines longFields).map .byte ++
      .err .wouldBlock :: ((b!"a: " ++ List.replicate 87 120).map .byte ++
      .err .wouldBlock :: ((List.replicate 90 120 ++ CRLF).map .byte ++ [.err .wouldBlock])))) :
    ∃ r', Calls (RequestParser.parse ⟨true⟩) .new r .panic r' ∧ r'.Ahead [] :=
  calls_of (requestParse_abs _) 3 hr (by decide +kernel)

/-- C16 is false in debug builds for bodies too: with the chunks of `C14_chunked_false`, a pause before the
last CRLF makes the next call panic. -/
theorem C16_chunks_false (d e : Bytes) (hde : d.length + e.length = 3 * 1024 * 1024) (hd : 10 ≤ d.length)
    (he : 10 ≤ e.length) (r : Rd)
    (hr : r.Ahead ((chunkedHead ++ b!"1\r\nx\r\n").map .byte ++ .err .wouldBlock ::
        ((b!"300000\r\n" ++ d).map .byte ++ .err .wouldBlock :: (e.map .byte ++ [.err .wouldBlock])))) :
    ∃ r', Calls (RequestParser.parse ⟨true⟩) .new r .panic r' := by
  obtain ⟨r1, hr1, h1⟩ := chunkedHead_calls ⟨true⟩ hr
  obtain ⟨r2, hr2, h2⟩ := request_pause (by simpa using hr1) (big_chunk_pause ⟨true⟩ (m := .post) (u := b!"/")
    (hs := HeaderMap.fromPairs [(Header.transferEncoding, b!"chunked")]) (x := 120) (d := d) (by omega) _)
  obtain ⟨r3, hr3, h3⟩ := request_pause (by simpa using hr2) (big_chunk_over ⟨true⟩ (m := .post) (u := b!"/")
    (hs := HeaderMap.fromPairs [(Header.transferEncoding, b!"chunked")]) (x := 120) (d := d) (e := e) hde (by omega) [])
  obtain ⟨r4, h4, -⟩ := requestParse_of hr3 (body_over (m := .post) (u := b!"/")
    (hs := HeaderMap.fromPairs [(Header.transferEncoding, b!"chunked")])
    (p := .chunked ⟨120 :: (d ++ e), .tailingCrlf [] false⟩) (by
      simp only [BodyParser.readSoFar, List.length_cons, List.length_append]; omega) [])
  exact ⟨r4, h1 _ _ (h2 _ _ (h3 _ _ (.last h4)))⟩

/-- C16 in release builds (partial: only there): no call panics, whatever the parser state and input. -/
theorem C16_release_partial (p : RequestParser) (r : Rd) : (RequestParser.parse ⟨false⟩ p r).1 ≠ .panic := by
  intro h
  have := (request_panic (Prod.ext h rfl : RequestParser.parse ⟨false⟩ p r = (.panic, _))).1
  cases this

/-- C16 in release builds, responses. -/
theorem C16_release_response_partial (p : ResponseParser) (r : Rd) :
    (ResponseParser.parse ⟨false⟩ p r).1 ≠ .panic := by
  intro h
  have := (response_panic (Prod.ext h rfl : ResponseParser.parse ⟨false⟩ p r = (.panic, _))).1
  cases this

/-- C16 for the first call (partial: no resumption): no input makes it panic. -/
theorem C16_first_call_partial (prof : Profile) (r : Rd) : (RequestParser.parse prof .new r).1 ≠ .panic := by
  intro h
  have := (request_panic (Prod.ext h rfl : RequestParser.parse prof .new r = (.panic, _))).2
  simp [RequestParser.new, MsgState.Over] at this

/-- C16 for responses, which the client always reads in one call. -/
theorem C16_first_response_partial (prof : Profile) (r : Rd) : (ResponseParser.parse prof .new r).1 ≠ .panic := by
  intro h
  have := (response_panic (Prod.ext h rfl : ResponseParser.parse prof .new r = (.panic, _))).2
  simp [ResponseParser.new, MsgState.Over] at this

theorem over_long {T : Type} {prof : Profile} {pf : Bytes → Except ParsingError T} {b single ended : Bool}
    {st : MsgState T} {w : Bytes} (e3 : MsgSt prof pf b single ended st w) (ho : st.Over) :
    (∃ line fs held, w = line ++ CRLF ++ fieldLines fs ++ held ∧ 4096 < (fieldLines fs).length) ∨
      3 * 1024 * 1024 < w.length := by
  cases e3 with
  | firstLine hln => exact absurd ho (by simp only [MsgState.Over]; have := hln.short; omega)
  | @headers l t p fs h1 h2 h3 h4 h5 =>
    rcases ho with ho | ho
    · have := h3.inner.short; omega
    · exact .inl ⟨l, fs, p.inner, by simp, by have := h3.read; omega⟩
  | @body l t hs fs f p c h1 h2 h3 h4 h5 h6 h7 h8 =>
    right
    suffices 3 * 1024 * 1024 < c.length by simp only [List.length_append]; omega
    rcases ho with ho | ho
    · cases h6 with
      | chunked hp =>
        cases hp with
        | size _ hln => have := hln.short; simp only [BodyParser.LineOver, ChunkState.LineOver] at ho; omega
        | tailing _ _ _ _ hln => have := hln.short; simp only [BodyParser.LineOver, ChunkState.LineOver] at ho; omega
        | _ => exact absurd ho (by simp [BodyParser.LineOver, ChunkState.LineOver])
      | _ => exact absurd ho (by simp [BodyParser.LineOver])
    · cases h6 with
      | length h => simp only [BodyParser.readSoFar] at ho; omega
      | untilEof h => simp only [BodyParser.readSoFar] at ho; omega
      | empty => simp [BodyParser.readSoFar] at ho
      | chunked hp =>
        have := chunkSt_length hp
        simp only [BodyParser.readSoFar] at ho
        omega
  | finished => exact absurd ho (by simp [MsgState.Over])

/-- C16 with any pauses (partial: the limits must have been exceeded before): if a call panics, then
more than 4096 bytes of header lines, or more than 3 MiB in all, have been taken. -/
theorem C16_resumed_partial {prof : Profile} {r r' : Rd} (hl : r.lims = [])
    (h : Calls (RequestParser.parse prof) .new r .panic r') :
    ∃ (parts : List Part) (r1 : Rd), r.src.atoms = parts.flatMap Part.taken ++ r1.src.atoms ∧
      ((∃ line fs held, parts.flatMap Part.kept = line ++ CRLF ++ fieldLines fs ++ held ∧ 4096 < (fieldLines fs).length) ∨
        3 * 1024 * 1024 < (parts.flatMap Part.kept).length) := by
  obtain ⟨ps, s, p1, r1, e1, e2, e3, e4⟩ := requestCalls_run h (MsgSt.start prof _ false) hl
  refine ⟨ps, r1, e1, ?_⟩
  rw [List.nil_append] at e3
  exact over_long e3 (request_panic e4).2

end Verif
