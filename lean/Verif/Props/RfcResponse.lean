import Verif.Spec.RfcResponse
import Verif.Props.Rfc

/-!
C65: the client reads responses as RFC 9112 says.
-/

namespace Verif

theorem chunks_of {cs : List (Bytes × Bytes)} {z : Bytes} (h4 : ∀ c ∈ cs, Numeral 16 c.1 c.2.length ∧ c.2 ≠ []) (h5 : Numeral 16 z 0) :
    Rfc.Chunked (chunkLines cs ++ z ++ CRLF ++ CRLF) (chunkData cs) := by
  induction cs with
  | nil =>
    have := Rfc.Chunked.last (z := z) (e := []) h5 (.inl rfl) .nil
    simpa [chunkLines, chunkData] using this
  | cons c cs ih =>
    have := Rfc.Chunked.chunk (z := c.1) (e := []) (d := c.2) (h4 c (by simp)).1 (h4 c (by simp)).2 (.inl rfl) (ih fun x hx => h4 x (by simp [hx]))
    simpa [chunkLines, chunkData] using this

/-- A plain response is a response. -/
theorem Rfc.PlainAnswer.answer {w : Bytes} {f : Framing} {a : Rfc.Answer} (h : Rfc.PlainAnswer w f a) : Rfc.AnswerOf w f a := by
  obtain ⟨-, hfull, hf, -, version, c, reason, bw, hv, hc, hn, hr, -, -, hw, hb⟩ := h
  have hval : ∀ {n f v}, a.fields.filter (fun f => Rfc.fold f.1 = n) = [(f, v)] → Rfc.FieldValue v := by
    intro n f v h
    have : (f, v) ∈ a.fields := (List.mem_filter.1 (by rw [h]; simp : (f, v) ∈ a.fields.filter (fun f => Rfc.fold f.1 = n))).1
    exact (hf _ this).2.1
  have hline : Rfc.StatusLine a (version ++ [SP] ++ c ++ [SP] ++ reason) := ⟨version, c, reason, hv, hc, hn, hr, rfl⟩
  have hsec := section_of (fs := a.fields) fun f h => ⟨(hf f h).1, (hf f h).2.1⟩
  rcases hb with ⟨rfl, h1, h2, -, h4⟩ | ⟨rfl, k, v, h1, h2, h3, -, h5⟩ | ⟨rfl, k, h1, h2, -, cs, z, h4, h5, -, h6, h7⟩
  · exact ⟨_, _, bw, hline, hsec, .close hfull (values_none h2) (values_none h1), h4.symm, hw⟩
  · have hvs := values_one h1 (hval h1) (numeral_value h3)
    exact ⟨_, _, bw, hline, hsec, .length (v := v) hfull (values_none h2) (by simp [hvs]) (by simp [hvs]) h3, ⟨h5, rfl⟩, hw⟩
  · refine ⟨_, _, bw, hline, hsec, .chunked (cs := []) (c := b!"chunked") hfull (values_one h2 (hval h2) (by decide)) (by decide), ?_, hw⟩
    show Rfc.Chunked bw a.body
    rw [h6, h7]
    exact chunks_of (fun c hc => ⟨(h4 c hc).1, (h4 c hc).2.2⟩) h5

theorem plain_fieldText {fs : List (Bytes × Bytes)} (hf : ∀ f ∈ fs, Rfc.Token f.1 ∧ Rfc.FieldValue f.2 ∧ utf8Valid f.2 = true ∧ (fieldLine f).length ≤ 510) :
    ∀ f ∈ fs, FieldText f := by
  intro f hm
  obtain ⟨h1, h2, h3, h4⟩ := hf f hm
  refine ⟨⟨?_, ?_, h4⟩, ?_⟩
  · simp only [fieldLine, List.mem_append]
    rintro ((h | h) | h)
    · have := (tchar_range (h1.2 _ h)).1
      exact absurd this (by decide)
    · exact absurd h (by decide)
    · exact (content_ne (h2.bytes _ h)).1 rfl
  · rw [fieldLine, utf8_append (utf8_ascii fun c hc => ?_)]
    · exact h3
    · rcases List.mem_append.1 hc with hc | hc
      · exact h1.ascii c hc
      · simp only [List.mem_cons, List.not_mem_nil, or_false] at hc
        rcases hc with rfl | rfl <;> decide
  · rintro ⟨a, b, hab⟩
    have : (58 : UInt8) ∈ f.1 := by rw [hab]; simp
    exact (tchar_range (h1.2 _ this)).2.2.1 rfl

theorem Rfc.PlainAnswer.fits {w : Bytes} {f : Framing} {a : Rfc.Answer} (h : Rfc.PlainAnswer w f a) : ∃ s, Rfc.Conveys a s ∧ FittingResponse w f s := by
  obtain ⟨⟨st, hst, hcode⟩, hfull, hf, hs, version, c, reason, bw, hv, hc, hn, hr, hu, hlen, hw, hb⟩ := h
  have hvl : version.length = 8 ∧ (∀ c ∈ version, c < 128) ∧ LF ∉ version := by
    rcases hv with rfl | rfl <;> decide
  have hdig : ∀ x ∈ c, x < 128 ∧ x ≠ LF := by
    intro x hx
    obtain ⟨h1, h2⟩ := numeral_digits hn x hx
    exact ⟨show x.toNat < 128 by omega, by rintro rfl; simp [LF] at h1⟩
  have hline : LineText (version ++ [SP] ++ c ++ [SP] ++ reason) := by
    refine ⟨?_, ?_, ?_⟩
    · simp only [List.mem_append, List.mem_cons, List.not_mem_nil, or_false]
      rintro ((((h | h) | h) | h) | h)
      · exact hvl.2.2 h
      · cases h
      · exact (hdig _ h).2 rfl
      · cases h
      · exact (content_ne (hr _ h)).1 rfl
    · rw [utf8_append (utf8_ascii fun x hx => ?_)]
      · exact hu
      · simp only [List.mem_append, List.mem_cons, List.not_mem_nil, or_false] at hx
        rcases hx with ((h | rfl) | h) | rfl
        · exact hvl.2.1 _ h
        · decide
        · exact (hdig _ h).1
        · decide
    · simp only [List.length_append, List.length_cons, List.length_nil]; omega
  have hfields := plain_fieldText hf
  have hsl : Verif.StatusLine st (version ++ [SP] ++ c ++ [SP] ++ reason) :=
    ⟨version, c, SP :: reason, hv, hst, .inl (by rw [hcode]; exact hn), .inr ⟨_, rfl⟩, by simp⟩
  refine ⟨⟨st, HeaderMap.fromPairs (fieldMap a.fields), a.body⟩, ⟨hcode, rfl, rfl⟩, version ++ [SP] ++ c ++ [SP] ++ reason, a.fields, ?_⟩
  rcases hb with ⟨rfl, h1, h2, h3, h4⟩ | ⟨rfl, f, v, h1, h2, h3, h4, h5⟩ | ⟨rfl, f, h1, h2, h3, cs, z, h4, h5, h6, h7, h8⟩
  · refine ⟨bw, hsl, ⟨hline, hfields, .none (no_fields cl_iff h1) (fun v hv => ?_), h4.symm, hw⟩, rfl, hs, h3⟩
    rw [find_fields te_iff, h2] at hv; cases hv
  · exact ⟨bw, hsl, ⟨hline, hfields, .length (v := v) (by rw [find_fields cl_iff, h1]; rfl) (.inl h3) (by omega), ⟨h5, rfl⟩, hw⟩, rfl, hs, h4⟩
  · refine ⟨bw, hsl, ⟨hline, hfields, .chunked (v := b!"chunked") (no_fields cl_iff h1) (by rw [find_fields te_iff, h2]; rfl) ⟨[], [], by decide⟩, ?_, hw⟩, rfl, hs, h3⟩
    refine ⟨cs, z, fun c hc => ⟨(h4 c hc).2.1, .inl (h4 c hc).1, (h4 c hc).2.2, ?_⟩, h6, .inl h5, h7, h8⟩
    have : c.2.length ≤ bw.length := by
      obtain ⟨a, b, rfl⟩ := List.append_of_mem hc
      rw [h7]
      simp only [chunkLines, List.flatMap_append, List.flatMap_cons, List.length_append]
      omega
    omega

/-- C65 (partial: responses in the plainest form, see `Rfc.PlainAnswer`): the client reads a response as RFC 9112 says: status, fields and body are what the response says, and it ends where the
response ends. -/
theorem C65_plain_partial (prof : Profile) {w : Bytes} {f : Framing} {a : Rfc.Answer} (h : Rfc.PlainAnswer w f a) {r : Rd} {rest : List Atom}
    (hr : r.Ahead (w.map .byte ++ if f = .untilEof then .eof :: rest else rest)) :
    Rfc.AnswerOf w f a ∧ ∃ s r', Rfc.Conveys a s ∧ ResponseParser.parse prof .new r = (.done s, r') ∧ r'.Ahead rest := by
  obtain ⟨s, h1, h2⟩ := h.fits
  obtain ⟨r', h3, h4⟩ := C04_response_accepted prof h2 hr
  exact ⟨h.answer, s, r', h1, h3, h4⟩

/-- With fields that are as they should be, the framing that the program sees is the one of the RFC. -/
theorem clean_framing {fs : List (Bytes × Bytes)} {f : Framing} {bw body : Bytes} {b : Bool} (hfields : ∀ f ∈ fs, Rfc.Token f.1 ∧ Rfc.FieldValue f.2)
    (hone1 : (fs.filter fun f => Rfc.fold f.1 = b!"content-length" ∨ Rfc.fold f.1 = b!"transfer-encoding").length ≤ 1)
    (hcoding : ∀ f ∈ fs, Rfc.fold f.1 = b!"transfer-encoding" → f.2 = b!"chunked") (hsign : ∀ f ∈ fs, Rfc.fold f.1 = b!"content-length" → f.2.head? ≠ some 43)
    (hchunks : f = .chunked → ∀ cs last, (∀ c ∈ cs, ChunkText c) → bw = chunkLines cs ++ last ++ CRLF ++ CRLF → (∀ c ∈ cs, c.1.head? ≠ some 43) ∧ last.head? ≠ some 43)
    (hfr : Announces (fieldMap fs) b (.ok f)) (hbody : BodyText f bw body) :
    (f = .chunked ∧ Rfc.values fs b!"transfer-encoding" = [b!"chunked"] ∧ Rfc.Chunked bw body) ∨
    (∃ v n, f = .length n ∧ Rfc.values fs b!"transfer-encoding" = [] ∧ Rfc.values fs b!"content-length" = [v] ∧ Numeral 10 v n ∧ bw = body ∧ body.length = n) ∨
    (f = (if b then .untilEof else .noBody) ∧ Rfc.values fs b!"transfer-encoding" = [] ∧ Rfc.values fs b!"content-length" = []) := by
  obtain ⟨hx, hcl, hte⟩ := filter_two (l := fs) (p := fun f => Rfc.fold f.1 = b!"content-length") (q := fun f => Rfc.fold f.1 = b!"transfer-encoding")
    (by intro x h1 h2; simp only [decide_eq_true_eq] at h1 h2; rw [h1] at h2; exact absurd h2 (by decide)) (by simpa using hone1)
  have hone : ∀ {n : Bytes} {v : Bytes}, (fs.filter fun f => Rfc.fold f.1 = n).length ≤ 1 → (fs.filter fun f => Rfc.fold f.1 = n).head?.map Prod.snd = some v →
      ∃ k, fs.filter (fun f => Rfc.fold f.1 = n) = [(k, v)] ∧ (k, v) ∈ fs ∧ Rfc.fold k = n := by
    intro n v h1 h2
    cases hl : fs.filter (fun f => Rfc.fold f.1 = n) with
    | nil => rw [hl] at h2; cases h2
    | cons x l =>
      rw [hl] at h1 h2
      have : l = [] := by simpa using h1
      subst this
      obtain ⟨k, v'⟩ := x
      obtain rfl : v' = v := Option.some.inj h2
      have hm : (k, v') ∈ fs.filter (fun f => Rfc.fold f.1 = n) := by rw [hl]; simp
      exact ⟨k, rfl, (List.mem_filter.1 hm).1, by simpa using (List.mem_filter.1 hm).2⟩
  generalize hf : (Except.ok f : Except ParsingError Framing) = ef at hfr
  cases hfr with
  | @length v n k1 k2 k3 =>
    cases hf
    rw [find_fields cl_iff] at k1
    obtain ⟨k, e1, e2, e3⟩ := hone hcl k1
    have hnum : Numeral 10 v n := by
      rcases k2 with k2 | ⟨t, rfl, -⟩
      · exact k2
      · exact absurd rfl (hsign _ e2 e3)
    have hv := values_one e1 (hfields _ e2).2 (numeral_value hnum)
    have ht : fs.filter (fun f => Rfc.fold f.1 = b!"transfer-encoding") = [] := by
      rcases hx with hx | hx
      · rw [e1] at hx; cases hx
      · exact hx
    exact .inr (.inl ⟨v, n, rfl, values_none ht, hv, hnum, hbody.1, hbody.2⟩)
  | tooLarge => cases hf
  | badLength => cases hf
  | @chunked v k1 k2 k3 =>
    cases hf
    rw [find_fields te_iff] at k2
    obtain ⟨k, e1, e2, e3⟩ := hone hte k2
    have : v = b!"chunked" := hcoding _ e2 e3
    subst this
    refine .inl ⟨rfl, values_one e1 (hfields _ e2).2 (by decide), ?_⟩
    obtain ⟨cs, last, j1, -, j3, j4, j5⟩ := hbody
    obtain ⟨j6, j7⟩ := hchunks rfl cs last j1 j4
    rw [j4, j5]
    refine chunks_of (fun c hc => ⟨?_, (j1 c hc).nonEmpty⟩) ?_
    · rcases (j1 c hc).size with h | ⟨t, h, -⟩
      · exact h
      · exact absurd (by rw [h]; rfl) (j6 c hc)
    · rcases j3 with j3 | ⟨t, rfl, -⟩
      · exact j3
      · exact absurd rfl j7
  | none k1 k2 =>
    cases hf
    have h1 : fs.filter (fun f => Rfc.fold f.1 = b!"content-length") = [] := by
      refine List.filter_eq_nil_iff.2 fun f hf he => ?_
      exact k1 (Header.ofStr f.1, f.2) (List.mem_map.2 ⟨f, hf, rfl⟩) ((cl_iff _).2 (by simpa using he))
    have h2 : fs.filter (fun f => Rfc.fold f.1 = b!"transfer-encoding") = [] := by
      cases hl : fs.filter (fun f => Rfc.fold f.1 = b!"transfer-encoding") with
      | nil => rfl
      | cons x l =>
        exfalso
        have hm : x ∈ fs.filter (fun f => Rfc.fold f.1 = b!"transfer-encoding") := by rw [hl]; simp
        have hv := hcoding x (List.mem_filter.1 hm).1 (by simpa using (List.mem_filter.1 hm).2)
        refine k2 x.2 (by rw [find_fields te_iff, hl]; rfl) ⟨[], [], by rw [hv]; rfl⟩
    exact .inr (.inr ⟨rfl, values_none h2, values_none h1⟩)

/-- C65 (partial: unless the text is contrary to RFC 9112 in one of the ways listed with `Rfc.CleanAnswer`): what the client accepts is a response according to RFC 9112, and says what it says. -/
theorem C65_sound_partial {prof : Profile} {s : Response} {r r' : Rd} (hl : r.lims = []) (h : ResponseParser.parse prof .new r = (.done s, r')) :
    ∃ pre line fs f bw, r.src.atoms = pre ++ r'.src.atoms ∧ Ends (decide (f = .untilEof)) pre ∧ StatusLine s.status line ∧ MessageText line fs true f bw s.body (bytesOf pre) ∧
      (Rfc.CleanAnswer line fs f bw → ∃ a, Rfc.AnswerOf (bytesOf pre) f a ∧ Rfc.Conveys a s) := by
  obtain ⟨pre, line, fs, f, bw, h1, h2, h3, h4, h5, h6, h7⟩ := responseOne_done h hl
  refine ⟨pre, line, fs, f, bw, h1, h2, h4, h5, fun hc => ⟨⟨s.status.code, fs, s.body⟩, ?_, rfl, h6, rfl⟩⟩
  have hsec := section_of (fs := fs) hc.fields
  have hline : Rfc.StatusLine ⟨s.status.code, fs, s.body⟩ line ∧ ¬ Rfc.Bodiless s.status.code := by
    obtain ⟨a, ⟨v, c, reason, k1, k2, k3, k4, k5⟩, k6⟩ := hc.strict
    obtain ⟨v', c', x, j1, j2, j3, j4, j5⟩ := h4
    have hsp : ∀ {c n}, UnsignedText 10 c n → SP ∉ c := by
      intro c n hc hmem
      rcases hc with hn | ⟨t, rfl, hn⟩
      · have := numeral_digits hn SP hmem; simp [SP] at this
      · rcases List.mem_cons.1 hmem with h | h
        · cases h
        · have := numeral_digits hn SP h; simp [SP] at this
    have e1 : splitByte SP line = v :: c :: splitByte SP reason := by
      rw [k5, show v ++ [SP] ++ c ++ [SP] ++ reason = v ++ SP :: (c ++ SP :: reason) by simp, splitByte_more (version_noSp k1), splitByte_more (hsp (.inl k3))]
    have e2 : ∃ t, splitByte SP line = v' :: c' :: t := by
      rcases j4 with rfl | ⟨t, rfl⟩
      · exact ⟨_, by rw [j5, show v' ++ [SP] ++ c' ++ [] = v' ++ SP :: c' by simp, splitByte_more (version_noSp j1), splitByte_last (hsp j3)]⟩
      · exact ⟨_, by rw [j5, show v' ++ [SP] ++ c' ++ SP :: t = v' ++ SP :: (c' ++ SP :: t) by simp, splitByte_more (version_noSp j1), splitByte_more (hsp j3)]⟩
    obtain ⟨t, e2⟩ := e2
    rw [e1] at e2
    injection e2 with e2 e3
    injection e3 with e3 e4
    subst e2 e3
    have : s.status.code = a.code := unsignedText_unique (by omega) j3 (.inl k3)
    exact ⟨⟨v, c, reason, k1, k2, by rw [this]; exact k3, k4, k5⟩, by rw [this]; exact k6⟩
  rcases clean_framing hc.fields hc.one hc.coding hc.sign hc.chunks h5.framing h5.bodyOk with ⟨rfl, k1, k2⟩ | ⟨v, n, rfl, k1, k2, k3, k4, k5⟩ | ⟨rfl, k1, k2⟩
  · exact ⟨line, _, bw, hline.1, hsec, .chunked (cs := []) hline.2 k1 (by decide), k2, h5.wire⟩
  · exact ⟨line, _, bw, hline.1, hsec, .length (v := v) hline.2 k1 (by simp [k2]) (by simp [k2]) k3, ⟨k4, k5⟩, h5.wire⟩
  · exact ⟨line, _, bw, hline.1, hsec, .close hline.2 k1 k2, h5.bodyOk, h5.wire⟩

/-- Plain responses: with a Content-Length, … -/
example : Rfc.PlainAnswer b!"HTTP/1.1 200 OK\r\nContent-Length: 3\r\n\r\nabc" (.length 3) ⟨200, [(b!"Content-Length", b!"3")], b!"abc"⟩ where
  status := ⟨Status.ok, by decide, rfl⟩
  full := by simp [Rfc.Bodiless]
  fields := by
    intro f hf
    obtain rfl := List.mem_singleton.1 hf
    exact ⟨⟨by decide, by decide⟩, .of (by decide) (by decide) (by decide), by decide +kernel, by decide⟩
  size := by decide
  text := ⟨b!"HTTP/1.1", b!"200", b!"OK", b!"abc", .inr rfl, rfl, numeral_of (by decide) (by decide) (by decide), by decide, by decide, by decide, by decide,
    .inr (.inl ⟨rfl, b!"Content-Length", b!"3", by decide, by decide, numeral_of (by decide) (by decide) (by decide), by decide, rfl⟩)⟩

/-- … up to the end of the stream, … -/
example : Rfc.PlainAnswer b!"HTTP/1.0 404 Not Found\r\n\r\nabc" .untilEof ⟨404, [], b!"abc"⟩ where
  status := ⟨Status.notFound, by decide, rfl⟩
  full := by simp [Rfc.Bodiless]
  fields := by simp
  size := by decide
  text := ⟨b!"HTTP/1.0", b!"404", b!"Not Found", b!"abc", .inl rfl, rfl, numeral_of (by decide) (by decide) (by decide), by decide, by decide, by decide, by decide,
    .inl ⟨rfl, by decide, by decide, by decide, rfl⟩⟩

/-- … and chunked. -/
example : Rfc.PlainAnswer b!"HTTP/1.1 200 \r\nTransfer-Encoding: chunked\r\n\r\n3\r\nabc\r\n0\r\n\r\n" .chunked ⟨200, [(b!"Transfer-Encoding", b!"chunked")], b!"abc"⟩ where
  status := ⟨Status.ok, by decide, rfl⟩
  full := by simp [Rfc.Bodiless]
  fields := by
    intro f hf
    obtain rfl := List.mem_singleton.1 hf
    exact ⟨⟨by decide, by decide⟩, .of (by decide) (by decide) (by decide), by decide +kernel, by decide⟩
  size := by decide
  text := ⟨b!"HTTP/1.1", b!"200", [], b!"3\r\nabc\r\n0\r\n\r\n", .inr rfl, rfl, numeral_of (by decide) (by decide) (by decide), by decide, by decide, by decide, by decide,
    .inr (.inr ⟨rfl, b!"Transfer-Encoding", by decide, by decide, by decide, [(b!"3", b!"abc")], b!"0",
    by intro c hc; obtain rfl := List.mem_singleton.1 hc; exact ⟨numeral_of (by decide) (by decide) (by decide), by decide, by decide⟩,
    numeral_of (by decide) (by decide) (by decide), by decide, by decide, by decide⟩)⟩

/-- A response that is clean. -/
example : Rfc.CleanAnswer b!"HTTP/1.1 200 OK" [(b!"Content-Length", b!"3")] (.length 3) b!"abc" where
  strict := ⟨⟨200, [], []⟩, ⟨b!"HTTP/1.1", b!"200", b!"OK", .inr rfl, rfl, numeral_of (by decide) (by decide) (by decide), by decide, by decide⟩, by simp [Rfc.Bodiless]⟩
  fields := by
    intro f hf
    obtain rfl := List.mem_singleton.1 hf
    exact ⟨⟨by decide, by decide⟩, .of (by decide) (by decide) (by decide)⟩
  one := by decide
  coding := by decide
  sign := by decide
  chunks := by intro h; cases h

/-! ## Where the client does not do what the RFC says -/

theorem answer_of {version c reason : Bytes} {a : Rfc.Answer} {f : Framing} {bw w : Bytes} (hv : version = b!"HTTP/1.0" ∨ version = b!"HTTP/1.1") (hc : c.length = 3) (hn : digitsVal 10 c 0 = some a.code)
    (hr : reason.all Rfc.content = true) (hf : a.fields.all (fun f => !f.1.isEmpty && f.1.all Rfc.tchar) = true)
    (hfv : a.fields.all (fun f => f.2.all Rfc.content && f.2.head?.all (fun b => !Rfc.blank b) && f.2.getLast?.all (fun b => !Rfc.blank b)) = true)
    (hd : Rfc.Delimited a.code a.fields f) (hb : Rfc.AnswerBody f bw a.body) (hw : w = version ++ [SP] ++ c ++ [SP] ++ reason ++ CRLF ++ fieldLines a.fields ++ CRLF ++ bw) :
    Rfc.AnswerOf w f a := by
  refine ⟨_, _, bw, ⟨version, c, reason, hv, hc, numeral_of (by omega) (by rintro rfl; cases hc) hn, by simpa using hr, rfl⟩, section_of fun f hm => ?_, hd, hb, hw⟩
  have h1 := List.all_eq_true.1 hfv f hm
  simp only [Bool.and_eq_true] at h1
  exact ⟨token_of (List.all_eq_true.1 hf f hm), .of h1.1.1 h1.1.2 h1.2⟩

/-- A response without content. -/
def noContentText : Bytes := b!"HTTP/1.1 204 No Content\r\n\r\n"

/-- C65 is false of 204: the response ends with its header section, but the client waits for the end of the stream, so it fails when its timeout is over; and what the server sends next on the
connection becomes the body of this response. -/
theorem C65_no_content_false (prof : Profile) : Rfc.AnswerOf noContentText .noBody ⟨204, [], []⟩ ∧
    (∀ r : Rd, r.Ahead (noContentText.map .byte ++ [.err .wouldBlock]) → ∃ p r', ResponseParser.parse prof .new r = (.io p .wouldBlock, r')) ∧
    ∀ r : Rd, r.Ahead ((noContentText ++ b!"HTTP/1.1 200 OK\r\n\r\n").map .byte ++ [.eof]) →
      ∃ s r', ResponseParser.parse prof .new r = (.done s, r') ∧ s.body = b!"HTTP/1.1 200 OK\r\n\r\n" := by
  refine ⟨answer_of (version := b!"HTTP/1.1") (c := b!"204") (reason := b!"No Content") (bw := []) (.inr rfl) rfl (by decide) (by decide) rfl rfl (.empty (.inr (.inl rfl))) ⟨rfl, rfl⟩ (by decide), ?_, ?_⟩
  · intro r hr
    have : ∃ o rest, ResponseParser.parse prof .new (⟨[], noContentText.map .byte ++ [.err .wouldBlock]⟩ : AR) = (o, ⟨[], rest⟩) ∧ ∃ p, o = .io p .wouldBlock := by
      have key : (match ResponseParser.parse prof .new (⟨[], noContentText.map .byte ++ [.err .wouldBlock]⟩ : AR) with
        | (.io _ .wouldBlock, ⟨[], _⟩) => true
        | _ => false) = true := by rcases prof with ⟨_ | _⟩ <;> decide +kernel
      split at key
      · rename_i p rest h
        exact ⟨_, rest, h, p, rfl⟩
      · cases key
    obtain ⟨o, rest, h1, p, rfl⟩ := this
    obtain ⟨r', h2, -⟩ := responseParse_of hr h1
    exact ⟨p, r', h2⟩
  · intro r hr
    obtain ⟨r', h1, -⟩ := responseParse_of (prof := prof) (p := .new) (o := .done ⟨⟨204, b!"NO CONTENT"⟩, [], b!"HTTP/1.1 200 OK\r\n\r\n"⟩) (rest := []) hr
      (by rcases prof with ⟨_ | _⟩ <;> decide +kernel)
    exact ⟨_, r', h1, rfl⟩

/-- A response to a conditional request, with the length that the body would have. -/
def notModifiedText : Bytes := b!"HTTP/1.1 304 Not Modified\r\nContent-Length: 8\r\n\r\n"

/-- C65 is false of 304 with a Content-Length, which is there for information only: the client takes the beginning of the next response for the body. -/
theorem C65_not_modified_false (prof : Profile) : Rfc.AnswerOf notModifiedText .noBody ⟨304, [(b!"Content-Length", b!"8")], []⟩ ∧
    ∀ r : Rd, r.Ahead ((notModifiedText ++ b!"HTTP/1.1 200 OK\r\n\r\n").map .byte) →
      ∃ s r', ResponseParser.parse prof .new r = (.done s, r') ∧ s.body = b!"HTTP/1.1" ∧ r'.Ahead (b!" 200 OK\r\n\r\n".map .byte) := by
  refine ⟨answer_of (version := b!"HTTP/1.1") (c := b!"304") (reason := b!"Not Modified") (bw := []) (.inr rfl) rfl (by decide) (by decide) (by decide) (by decide)
    (.empty (.inr (.inr rfl))) ⟨rfl, rfl⟩ (by decide), fun r hr => ?_⟩
  obtain ⟨r', h1, h2⟩ := responseParse_of (prof := prof) (p := .new) (o := .done ⟨⟨304, b!"NOT MODIFIED"⟩, [(Header.contentLength, [b!"8"])], b!"HTTP/1.1"⟩)
    (rest := b!" 200 OK\r\n\r\n".map .byte) hr (by rcases prof with ⟨_ | _⟩ <;> decide +kernel)
  exact ⟨_, r', h1, rfl, h2⟩

/-- C65: correct responses are refused: an interim response, which has to be skipped, and one with a status that the client does not know, which has to be treated as the general one of its
class (RFC 9110 15). -/
theorem C65_refused_false (prof : Profile) : ∀ w ∈ [b!"HTTP/1.1 100 Continue\r\n\r\n", b!"HTTP/1.1 425 Too Early\r\nContent-Length: 0\r\n\r\n"],
    (∃ f a, Rfc.AnswerOf w f a) ∧ ∀ r : Rd, r.Ahead (w.map .byte) → ∃ r', ResponseParser.parse prof .new r = (.perr .invalidStatusCode, r') := by
  simp only [List.mem_cons, List.not_mem_nil, or_false]
  rintro w (rfl | rfl)
  · refine ⟨⟨.noBody, ⟨100, [], []⟩, answer_of (version := b!"HTTP/1.1") (c := b!"100") (reason := b!"Continue") (bw := []) (.inr rfl) rfl (by decide) (by decide) rfl rfl
      (.empty (.inl (by decide))) ⟨rfl, rfl⟩ (by decide)⟩, fun r hr => ?_⟩
    obtain ⟨r', h1, -⟩ := responseParse_of (prof := prof) (p := .new) (o := .perr .invalidStatusCode) (rest := b!"\r\n".map .byte) hr (by rcases prof with ⟨_ | _⟩ <;> decide +kernel)
    exact ⟨r', h1⟩
  · refine ⟨⟨.length 0, ⟨425, [(b!"Content-Length", b!"0")], []⟩, answer_of (version := b!"HTTP/1.1") (c := b!"425") (reason := b!"Too Early") (bw := []) (.inr rfl) rfl (by decide) (by decide)
      (by decide) (by decide) (.length (v := b!"0") (by simp [Rfc.Bodiless]) (by decide) (by decide) (by decide) (numeral_of (by decide) (by decide) (by decide))) ⟨rfl, rfl⟩ (by decide)⟩,
      fun r hr => ?_⟩
    obtain ⟨r', h1, -⟩ := responseParse_of (prof := prof) (p := .new) (o := .perr .invalidStatusCode) (rest := b!"Content-Length: 0\r\n\r\n".map .byte) hr
      (by rcases prof with ⟨_ | _⟩ <;> decide +kernel)
    exact ⟨r', h1⟩

/-- A response with both Transfer-Encoding and Content-Length. -/
def bothAnswer : Bytes := b!"HTTP/1.1 200 OK\r\nTransfer-Encoding: chunked\r\nContent-Length: 3\r\n\r\n1\r\nx\r\n0\r\n\r\n"

/-- C65 is false of responses with both Transfer-Encoding and Content-Length: the latter does not count, but the client goes by it. -/
theorem C65_both_false (prof : Profile) : Rfc.AnswerOf bothAnswer .chunked ⟨200, [(b!"Transfer-Encoding", b!"chunked"), (b!"Content-Length", b!"3")], b!"x"⟩ ∧
    ∀ r : Rd, r.Ahead (bothAnswer.map .byte) → ∃ s r', ResponseParser.parse prof .new r = (.done s, r') ∧ s.body = b!"1\r\n" ∧ r'.Ahead (b!"x\r\n0\r\n\r\n".map .byte) := by
  refine ⟨answer_of (version := b!"HTTP/1.1") (c := b!"200") (reason := b!"OK") (bw := b!"1\r\nx\r\n0\r\n\r\n") (.inr rfl) rfl (by decide) (by decide) (by decide) (by decide)
    (.chunked (cs := []) (c := b!"chunked") (by simp [Rfc.Bodiless]) (by decide) (by decide)) ?_ (by decide), fun r hr => ?_⟩
  · exact .chunk (z := b!"1") (e := []) (d := b!"x") (numeral_of (by decide) (by decide) (by decide)) (by decide) (.inl rfl)
      (.last (z := b!"0") (e := []) (tw := []) (numeral_of (by decide) (by decide) (by decide)) (.inl rfl) .nil)
  · obtain ⟨r', h1, h2⟩ := responseParse_of (prof := prof) (p := .new)
      (o := .done ⟨Status.ok, [(Header.transferEncoding, [b!"chunked"]), (Header.contentLength, [b!"3"])], b!"1\r\n"⟩)
      (rest := b!"x\r\n0\r\n\r\n".map .byte) hr (by rcases prof with ⟨_ | _⟩ <;> decide +kernel)
    exact ⟨_, r', h1, rfl, h2⟩

/-- A chunked response, with the name of the coding in another case. -/
def caseAnswer : Bytes := b!"HTTP/1.1 200 OK\r\nTransfer-Encoding: Chunked\r\n\r\n1\r\nx\r\n0\r\n\r\n"

/-- C65 is false of the name of the coding in another case: the client waits for the end of the stream, and takes the chunks with their sizes for the body. -/
theorem C65_case_false (prof : Profile) : Rfc.AnswerOf caseAnswer .chunked ⟨200, [(b!"Transfer-Encoding", b!"Chunked")], b!"x"⟩ ∧
    ∀ r : Rd, r.Ahead (caseAnswer.map .byte ++ [.eof]) → ∃ s r', ResponseParser.parse prof .new r = (.done s, r') ∧ s.body = b!"1\r\nx\r\n0\r\n\r\n" := by
  refine ⟨answer_of (version := b!"HTTP/1.1") (c := b!"200") (reason := b!"OK") (bw := b!"1\r\nx\r\n0\r\n\r\n") (.inr rfl) rfl (by decide) (by decide) (by decide) (by decide)
    (.chunked (cs := []) (c := b!"Chunked") (by simp [Rfc.Bodiless]) (by decide) (by decide)) ?_ (by decide), fun r hr => ?_⟩
  · exact .chunk (z := b!"1") (e := []) (d := b!"x") (numeral_of (by decide) (by decide) (by decide)) (by decide) (.inl rfl)
      (.last (z := b!"0") (e := []) (tw := []) (numeral_of (by decide) (by decide) (by decide)) (.inl rfl) .nil)
  · obtain ⟨r', h1, -⟩ := responseParse_of (prof := prof) (p := .new) (o := .done ⟨Status.ok, [(Header.transferEncoding, [b!"Chunked"])], b!"1\r\nx\r\n0\r\n\r\n"⟩) (rest := []) hr
      (by rcases prof with ⟨_ | _⟩ <;> decide +kernel)
    exact ⟨_, r', h1, rfl⟩

end Verif
