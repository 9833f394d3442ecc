import Verif.Proofs.SlowAnyChunks

/-!
C79 is false of the text of infinite_chunked_body, and of many chunks and header lines, if it comes slowly.
-/

namespace Verif

variable {σ : Type} {prof : Profile} {rt : Router σ} {n : Nat}

theorem handleAll_slowly {p p' : RequestParser} {bs : Bytes} (h : Slowly prof p bs p') : ∀ {c : Conn Rd Nbw} {es es' : List (List WEv)} {X : List Atom}, c.parser.getD .new = p → c.reader.Ahead (spaced (bs.map fun b => [.byte b]) X) →
    Writable rt n c (es ++ es') → es.length = bs.length → ∀ s : σ, ∃ c', handleAll prof rt (es ++ es') (.live c) s = handleAll prof rt es' (.live c') s ∧ c'.parser.getD .new = p' ∧ c'.reader.Ahead X ∧
      Writable rt n c' es' ∧ c'.writer.total = c.writer.total := by
  induction h with
  | nil =>
    intro c es es' X hp hr hw hl s
    obtain rfl := List.length_eq_zero_iff.1 hl
    exact ⟨c, rfl, hp, hr, hw, rfl⟩
  | @cons p p₁ p' b bs h _ ih =>
    intro c es es' X hp hr hw hl s
    cases es with
    | nil => cases hl
    | cons evs es =>
      obtain ⟨r₁, h1, h2⟩ := requestParse_of hr (h _)
      obtain ⟨w₁, i1, i2, i3⟩ := handleAll_waits hr.1 hw (by rw [hp]; exact h1) s
      obtain ⟨c', j1, j2, j3, j4, j5⟩ := ih (c := ⟨r₁, w₁, some p₁⟩) (es := es) (es' := es') (X := X) rfl h2 i2 (by simpa using hl) s
      exact ⟨c', i1.trans j1, j2, j3, j4, j5.trans i3⟩

/-- After some bytes, one at a time, the handler panics. -/
theorem handleAll_slow_panic {p : RequestParser} {bs : Bytes} (h : Slowly ⟨true⟩ .new bs p) (hover : ∀ as, RequestParser.parse ⟨true⟩ p (⟨[], as⟩ : AR) = (.panic, ⟨[], as⟩)) {c : Conn Rd Nbw} (hp : c.parser.getD .new = .new) {X : List Atom}
    (hr : c.reader.Ahead (spaced (bs.map fun b => [.byte b]) X)) {es : List (List WEv)} {evs : List WEv} (hw : Writable rt n c (es ++ [evs])) (hes : es.length = bs.length) (s : σ) :
    ∃ c₁ c₂, handleAll ⟨true⟩ rt es (.live c) s = (.live c₁, s) ∧ c₁.writer.total = c.writer.total ∧ handleAll ⟨true⟩ rt (es ++ [evs]) (.live c) s = (.poisoned c₂, s) ∧ c₂.writer.total = c.writer.total := by
  have hw' : Writable rt n c (es ++ []) := ⟨hw.parts, hw.steady, fun e he => hw.calm e (by rw [List.append_nil] at he; simp [he])⟩
  obtain ⟨c₁, h1, -, -, -, h5⟩ := handleAll_slowly (rt := rt) (n := n) (es' := []) h hp hr hw' hes s
  obtain ⟨c₂, g1, g2, g3, g4, g5⟩ := handleAll_slowly (rt := rt) (n := n) (es' := [evs]) h hp hr hw hes s
  rw [List.append_nil] at h1
  obtain ⟨w2, k1, k2, k3, k4⟩ := flush_healthy g4.wake
  obtain ⟨r', hover⟩ : ∃ r', RequestParser.parse ⟨true⟩ (c₂.parser.getD .new) c₂.reader = (.panic, r') := by
    obtain ⟨r', i1, -⟩ := requestParse_of g3 (hover X)
    exact ⟨r', by rw [g2, i1]⟩
  refine ⟨c₁, ⟨r', w2, none⟩, h1, h5, ?_, k3.trans g5⟩
  rw [g1]
  simp only [handleAll, Slot.wake, handle_live, k1, respondToRequests]
  rw [show Reader.fuel c₂.reader = (3 * c₂.reader.src.atoms.length + 7) + 1 from rfl, respondLoop]
  unfold Conn.readRequest
  simp only [hover]
  rfl

/-- C79 is false of the text of the integration test infinite_chunked_body (tests/http_server.rs 498-522), in release builds: if it comes one byte at a time, each before the server looks again, then the client is not cut off. Any number of chunks is read,
the server goes on waiting, with all that was read in memory, and sends nothing. -/
theorem C79_chunks_release_false (k : Nat) (hk : k ≤ 2 ^ 60) {c : Conn Rd Nbw} (hp : c.parser.getD .new = .new) {X : List Atom}
    (hr : c.reader.Ahead (spaced ((b!"GET / HTTP/1.1\r\ntransfer-encoding: chunked\r\n\r\n" ++ again k b!"5\r\nhello\r\n").map fun b => [.byte b]) X)) {es : List (List WEv)} (hw : Writable rt n c es)
    (hes : es.length = 46 + 10 * k) (s : σ) :
    ∃ c' hs, handleAll ⟨false⟩ rt es (.live c) s = (.live c', s) ∧ c'.reader.Ahead X ∧ c'.writer.total = c.writer.total ∧ c'.parser = some (.body (.get, b!"/") hs (.chunked ⟨again k b!"hello", .size []⟩)) := by
  have h := (slow_head ⟨false⟩).append (slow_chunks k fun j hj => ?_)
  · obtain ⟨c', h1, h2, h3, -, h4⟩ := handleAll_slowly (rt := rt) (n := n) (es' := []) h hp hr (by simpa using hw) (by
      rw [hes, List.length_append, again_length]
      simp [helloHead, helloChunk]
      omega) s
    rw [List.append_nil] at h1
    refine ⟨c', HeaderMap.fromPairs [(Header.transferEncoding, b!"chunked")], h1, h3, h4, ?_⟩
    cases hc : c'.parser with
    | none => rw [hc] at h2; cases h2
    | some p => rw [hc] at h2; exact congrArg some h2
  · simp only [Profile.sub]
    split
    · exact ⟨_, rfl, by omega⟩
    · exact ⟨_, rfl, by simp only [usizeBound]; omega⟩

/-- And in builds with overflow checks: the client is not cut off before it has sent 629145 chunks and the data of one more, and then, whatever comes next, the handler panics. The client gets no response. -/
theorem C79_chunks_debug_false {c : Conn Rd Nbw} (hp : c.parser.getD .new = .new) {X : List Atom}
    (hr : c.reader.Ahead (spaced ((b!"GET / HTTP/1.1\r\ntransfer-encoding: chunked\r\n\r\n" ++ again 629145 b!"5\r\nhello\r\n" ++ b!"5\r\nhello").map fun b => [.byte b]) X)) {es : List (List WEv)} {evs : List WEv}
    (hw : Writable rt n c (es ++ [evs])) (hes : es.length = 46 + 10 * 629145 + 8) (s : σ) :
    ∃ c₁ c₂, handleAll ⟨true⟩ rt es (.live c) s = (.live c₁, s) ∧ c₁.writer.total = c.writer.total ∧ handleAll ⟨true⟩ rt (es ++ [evs]) (.live c) s = (.poisoned c₂, s) ∧ c₂.writer.total = c.writer.total := by
  have hsub : ∀ j ≤ 629145, ∃ lim, Profile.sub ⟨true⟩ (3 * 1024 * 1024) (5 * j) = some lim ∧ 2 ≤ lim := fun j hj => ⟨_, sub_le _ (by omega), by omega⟩
  have hlen : (again 629145 b!"hello").length = 5 * 629145 := by rw [again_length]; rfl
  obtain ⟨lim, hl, h2⟩ := hsub 629145 (Nat.le_refl _)
  have h := ((slow_head ⟨true⟩).append (slow_chunks _ hsub)).append (slow_data (by rw [hlen]; exact hl) h2)
  refine handleAll_slow_panic h (fun as => ?_) hp hr hw ?_ s
  · exact body_over (by simp only [BodyParser.readSoFar, List.length_append, hlen]; decide) as
  · rw [hes, List.length_append, List.length_append, again_length]
    rfl

/-- C79 is false of header lines that come one byte at a time, in release builds, unless their length is a divisor of 4096 or 4095 (otherwise `C79_server_partial`): after the first line of a request any number of them is read, the server goes on waiting, and sends nothing. -/
theorem C79_lines_release_false {m : Method} {u l : Bytes} (h1 : RequestLine m u l) (h2 : LineText l) {f : Bytes × Bytes} (h3 : FieldText f) (h4 : ∀ c ∈ l ++ fieldLine f, c < 128) (h5 : 2 ≤ 4096 % (fieldLine f).length)
    (k : Nat) (hk : k ≤ 2 ^ 54) {c : Conn Rd Nbw} (hp : c.parser.getD .new = .new) {X : List Atom} (hr : c.reader.Ahead (spaced ((l ++ CRLF ++ again k (fieldLine f ++ CRLF)).map fun b => [.byte b]) X))
    {es : List (List WEv)} (hw : Writable rt n c es) (hes : es.length = (l ++ CRLF ++ again k (fieldLine f ++ CRLF)).length) (s : σ) :
    ∃ c' hs, handleAll ⟨false⟩ rt es (.live c) s = (.live c', s) ∧ c'.reader.Ahead X ∧ c'.writer.total = c.writer.total ∧ c'.parser = some (.headers (m, u) ⟨[], hs, (fieldLine f).length * k⟩) := by
  have hshort := h3.line.short
  have hk' : ∀ m < k, ∃ lim, Profile.sub ⟨false⟩ 4096 ((fieldLine f).length * m) = some lim ∧ 2 ≤ lim := by
    intro m hm
    have hdiv := Nat.div_add_mod 4096 (fieldLine f).length
    have hle : (fieldLine f).length * m ≤ 510 * 2 ^ 54 := Nat.mul_le_mul hshort (by omega)
    simp only [Profile.sub]
    split
    · rename_i hm'
      refine ⟨_, rfl, ?_⟩
      have : (fieldLine f).length * m ≤ (fieldLine f).length * (4096 / (fieldLine f).length) := Nat.mul_le_mul_left _ ((Nat.le_div_iff_mul_le (List.length_pos_iff.2 (fieldLine_ne_nil f))).2 (by rw [Nat.mul_comm]; exact hm'))
      omega
    · exact ⟨_, rfl, by simp only [usizeBound]; omega⟩
  obtain ⟨hs, h⟩ := slow_section (prof := ⟨false⟩) (fl := l) (fun c hc => ⟨h4 c (by simp [hc]), by rintro rfl; exact h2.noLf hc⟩) h2.short (requestLine_iff.2 h1)
    (ln := fieldLine f) ⟨fun c hc => ⟨h4 c (by simp [hc]), by rintro rfl; exact h3.line.noLf hc⟩, List.length_pos_iff.2 (fieldLine_ne_nil f), hshort, _, parseHeader_field h3⟩ hk'
  obtain ⟨c', h1, h2, h3, -, h4⟩ := handleAll_slowly (rt := rt) (n := n) (es' := []) h hp hr (by simpa using hw) hes s
  rw [List.append_nil] at h1
  refine ⟨c', hs, h1, h3, h4, ?_⟩
  cases hc : c'.parser with
  | none => rw [hc] at h2; cases h2
  | some p => rw [hc] at h2; exact congrArg some h2

/-- And in builds with overflow checks: when so many of them have come that their lengths add up to more than 4096 the handler panics, whatever comes next. The client gets no response. -/
theorem C79_lines_debug_false {m : Method} {u l : Bytes} (h1 : RequestLine m u l) (h2 : LineText l) {f : Bytes × Bytes} (h3 : FieldText f) (h4 : ∀ c ∈ l ++ fieldLine f, c < 128) (h5 : 2 ≤ 4096 % (fieldLine f).length)
    {c : Conn Rd Nbw} (hp : c.parser.getD .new = .new) {X : List Atom} (hr : c.reader.Ahead (spaced ((l ++ CRLF ++ again (4096 / (fieldLine f).length + 1) (fieldLine f ++ CRLF)).map fun b => [.byte b]) X))
    {es : List (List WEv)} {evs : List WEv} (hw : Writable rt n c (es ++ [evs])) (hes : es.length = (l ++ CRLF ++ again (4096 / (fieldLine f).length + 1) (fieldLine f ++ CRLF)).length) (s : σ) :
    ∃ c₁ c₂, handleAll ⟨true⟩ rt es (.live c) s = (.live c₁, s) ∧ c₁.writer.total = c.writer.total ∧ handleAll ⟨true⟩ rt (es ++ [evs]) (.live c) s = (.poisoned c₂, s) ∧ c₂.writer.total = c.writer.total := by
  have hdiv := Nat.div_add_mod 4096 (fieldLine f).length
  have hpos := List.length_pos_iff.2 (fieldLine_ne_nil f)
  have hmod := Nat.mod_lt 4096 hpos
  have hk : ∀ m < 4096 / (fieldLine f).length + 1, ∃ lim, Profile.sub ⟨true⟩ 4096 ((fieldLine f).length * m) = some lim ∧ 2 ≤ lim := by
    intro m hm
    have := Nat.mul_le_mul_left (fieldLine f).length (show m ≤ 4096 / (fieldLine f).length by omega)
    exact ⟨_, sub_le _ (by omega), by omega⟩
  obtain ⟨hs, h⟩ := slow_section (prof := ⟨true⟩) (fl := l) (fun c hc => ⟨h4 c (by simp [hc]), by rintro rfl; exact h2.noLf hc⟩) h2.short (requestLine_iff.2 h1)
    (ln := fieldLine f) ⟨fun c hc => ⟨h4 c (by simp [hc]), by rintro rfl; exact h3.line.noLf hc⟩, hpos, h3.line.short, _, parseHeader_field h3⟩ hk
  refine handleAll_slow_panic h (fun as => request_headers_over ?_ as) hp hr hw hes s
  show 4096 < (fieldLine f).length * (4096 / (fieldLine f).length + 1)
  rw [Nat.mul_add, Nat.mul_one]
  omega

/-- C79 is false of chunks that come one byte at a time, in release builds, unless their size is a divisor of 3 MiB or one less (otherwise `C79_server_partial`): after the head of a request any number of them is read, the server goes on waiting, with all of the data
in memory, and sends nothing. -/
theorem C79_any_chunks_release_false {m : Method} {u l : Bytes} (h1 : RequestLine m u l) (h2 : LineText l) {fs : List (Bytes × Bytes)} (h3 : ∀ f ∈ fs, FieldText f) (h4 : ∀ x ∈ l ++ fieldLines fs, x < 128)
    (h5 : (fieldLines fs).length + 2 ≤ 4096) (h6 : Announces (fieldMap fs) false (.ok .chunked)) {ch : Bytes × Bytes} (h7 : ChunkText ch) (h8 : 2 ≤ 3 * 1024 * 1024 % ch.2.length)
    (k : Nat) (hk : k ≤ 2 ^ 40) {c : Conn Rd Nbw} (hp : c.parser.getD .new = .new) {X : List Atom} {b : Bytes} (hb : b = l ++ CRLF ++ (fieldLines fs ++ CRLF) ++ again k (ch.1 ++ CRLF ++ (ch.2 ++ CRLF)))
    (hr : c.reader.Ahead (spaced (b.map fun b => [.byte b]) X)) {es : List (List WEv)} (hw : Writable rt n c es) (hes : es.length = b.length) (s : σ) :
    ∃ c' hs body st, handleAll ⟨false⟩ rt es (.live c) s = (.live c', s) ∧ c'.reader.Ahead X ∧ c'.writer.total = c.writer.total ∧ c'.parser = some (.body (m, u) hs (.chunked ⟨body, st⟩)) ∧ body.length = ch.2.length * k := by
  have hc := chunked_of h1 h2 h3 h4 h5 h6 h7
  have hpos := hc.chunk.pos
  have hlim : ∀ q ≤ k, ∃ lim, Profile.sub ⟨false⟩ (3 * 1024 * 1024) (ch.2.length * q) = some lim ∧ 2 ≤ lim := by
    intro q hq
    have hdiv := Nat.div_add_mod (3 * 1024 * 1024) ch.2.length
    have hle : ch.2.length * q ≤ (3 * 1024 * 1024) * 2 ^ 40 := Nat.mul_le_mul h7.max (by omega)
    simp only [Profile.sub]
    split
    · rename_i hm'
      refine ⟨_, rfl, ?_⟩
      have : ch.2.length * q ≤ ch.2.length * (3 * 1024 * 1024 / ch.2.length) := Nat.mul_le_mul_left _ ((Nat.le_div_iff_mul_le hpos).2 (by rw [Nat.mul_comm]; exact hm'))
      omega
    · exact ⟨_, rfl, by simp only [usizeBound]; omega⟩
  have hbl : b.length = (headOf l fs).length + k * (ch.1.length + ch.2.length + 4) := by
    have hwl : (ch.1 ++ CRLF ++ (ch.2 ++ CRLF)).length = ch.1.length + ch.2.length + 4 := wired_length ch.1 ch.2
    rw [hb, List.length_append (as := l ++ CRLF ++ (fieldLines fs ++ CRLF)), again_length, hwl]
  obtain ⟨p', g1, g2⟩ := slow_run (prof := ⟨false⟩) hc hlim b (c := []) (p := .new) (.first (u := ended l) rfl (by simp [ended, CRLF]))
    (by rw [hb, again_add]; exact ⟨again 1 _, by rw [List.nil_append, List.append_assoc]⟩) (by rw [List.nil_append, hbl]; omega)
  obtain ⟨c', i1, i2, i3, -, i4⟩ := handleAll_slowly (rt := rt) (n := n) (es' := []) g1 hp hr (by simpa using hw) hes s
  rw [List.append_nil] at i1
  rw [List.nil_append] at g2
  rcases g2.where with hlt | ⟨k', j, i, u', B, st, hin, hB, -, rfl, hlen⟩
  · omega
  · obtain ⟨hwhole, hu', -, hj⟩ := hin.whole
    have e1 := congrArg List.length hwhole
    have := List.length_pos_iff.2 hu'
    rw [List.length_append, wired_length] at e1
    rw [hbl] at hlen
    have hkk : k' = k := by
      rcases Nat.lt_trichotomy k' k with h | h | h
      · have := Nat.mul_le_mul_right (ch.1.length + ch.2.length + 4) (show k' + 1 ≤ k from h)
        rw [Nat.add_mul, Nat.one_mul] at this
        omega
      · exact h
      · have := Nat.mul_le_mul_right (ch.1.length + ch.2.length + 4) (show k + 1 ≤ k' from h)
        rw [Nat.add_mul, Nat.one_mul] at this
        omega
    subst hkk
    obtain rfl : j = 0 := by omega
    refine ⟨c', addAll [] fs, B, st, i1, i3, i4, ?_, hB⟩
    cases hc : c'.parser with
    | none => rw [hc] at i2; cases i2
    | some p => rw [hc] at i2; exact congrArg some i2

/-- And in builds with overflow checks: when so many of them have come that there is more than 3 MiB of data the handler panics, whatever comes next. The client gets no response. -/
theorem C79_any_chunks_debug_false {m : Method} {u l : Bytes} (h1 : RequestLine m u l) (h2 : LineText l) {fs : List (Bytes × Bytes)} (h3 : ∀ f ∈ fs, FieldText f) (h4 : ∀ x ∈ l ++ fieldLines fs, x < 128)
    (h5 : (fieldLines fs).length + 2 ≤ 4096) (h6 : Announces (fieldMap fs) false (.ok .chunked)) {ch : Bytes × Bytes} (h7 : ChunkText ch) (h8 : 2 ≤ 3 * 1024 * 1024 % ch.2.length)
    {c : Conn Rd Nbw} (hp : c.parser.getD .new = .new) {X : List Atom} {b : Bytes}
    (hb : b = l ++ CRLF ++ (fieldLines fs ++ CRLF) ++ (again (3 * 1024 * 1024 / ch.2.length) (ch.1 ++ CRLF ++ (ch.2 ++ CRLF)) ++ (ch.1 ++ CRLF ++ ch.2)))
    (hr : c.reader.Ahead (spaced (b.map fun b => [.byte b]) X)) {es : List (List WEv)} {evs : List WEv} (hw : Writable rt n c (es ++ [evs])) (hes : es.length = b.length) (s : σ) :
    ∃ c₁ c₂, handleAll ⟨true⟩ rt es (.live c) s = (.live c₁, s) ∧ c₁.writer.total = c.writer.total ∧ handleAll ⟨true⟩ rt (es ++ [evs]) (.live c) s = (.poisoned c₂, s) ∧ c₂.writer.total = c.writer.total := by
  have hc := chunked_of h1 h2 h3 h4 h5 h6 h7
  have hpos := hc.chunk.pos
  have hdiv := Nat.div_add_mod (3 * 1024 * 1024) ch.2.length
  have hmod := Nat.mod_lt (3 * 1024 * 1024) hpos
  generalize hQ : 3 * 1024 * 1024 / ch.2.length = Q at hb hdiv
  have hlim : ∀ q ≤ Q, ∃ lim, Profile.sub ⟨true⟩ (3 * 1024 * 1024) (ch.2.length * q) = some lim ∧ 2 ≤ lim := by
    intro q hq
    have := Nat.mul_le_mul_left ch.2.length hq
    exact ⟨_, sub_le _ (by omega), by omega⟩
  have hbl : b.length = (headOf l fs).length + (Q * (ch.1.length + ch.2.length + 4) + (ch.1.length + 2 + ch.2.length)) := by
    have hwl : (ch.1 ++ CRLF ++ (ch.2 ++ CRLF)).length = ch.1.length + ch.2.length + 4 := wired_length ch.1 ch.2
    have hwl' : (ch.1 ++ CRLF ++ ch.2).length = ch.1.length + 2 + ch.2.length := by simp [CRLF]; omega
    rw [hb, List.length_append (as := l ++ CRLF ++ (fieldLines fs ++ CRLF)), List.length_append (as := again _ _), again_length, hwl, hwl']
  obtain ⟨p', g1, g2⟩ := slow_run (prof := ⟨true⟩) hc hlim b (c := []) (p := .new) (.first (u := ended l) rfl (by simp [ended, CRLF]))
    (by
      rw [hb, List.nil_append, List.prefix_append_right_inj, again_add, List.prefix_append_right_inj]
      exact ⟨CRLF, by simp [again]⟩) (by rw [List.nil_append, hbl]; omega)
  rw [List.nil_append] at g2
  rcases g2.where with hlt | ⟨k', j, i, u', B, st, hin, hB, -, rfl, hlen⟩
  · omega
  · obtain ⟨hwhole, hu', -, hj⟩ := hin.whole
    have e1 := congrArg List.length hwhole
    have := List.length_pos_iff.2 hu'
    rw [List.length_append, wired_length] at e1
    rw [hbl] at hlen
    have hkk : k' = Q := by
      rcases Nat.lt_trichotomy k' Q with h | h | h
      · have := Nat.mul_le_mul_right (ch.1.length + ch.2.length + 4) (show k' + 1 ≤ Q from h)
        rw [Nat.add_mul, Nat.one_mul] at this
        omega
      · exact h
      · have := Nat.mul_le_mul_right (ch.1.length + ch.2.length + 4) (show Q + 1 ≤ k' from h)
        rw [Nat.add_mul, Nat.one_mul] at this
        omega
    subst hkk
    obtain rfl : j = 1 := by omega
    refine handleAll_slow_panic g1 (fun as => body_over ?_ as) hp hr hw hes s
    simp only [BodyParser.readSoFar, hB]
    rw [Nat.mul_add, Nat.mul_one]
    omega

/-! ## Witnesses -/

/-- A client that sends some bytes one at a time. -/
def oneByOne (bs : Bytes) : List Ev := bs.flatMap fun b => [.data [b], .err .wouldBlock]

theorem oneByOne_atoms (bs : Bytes) : (oneByOne bs).flatMap Ev.atoms = spaced (bs.map fun b => [.byte b]) [] := by
  induction bs with
  | nil => rfl
  | cons b bs ih =>
    simp only [oneByOne, List.flatMap_cons, List.flatMap_append, List.map_cons, spaced] at ih ⊢
    rw [ih]
    rfl

/-- Such a line, one byte longer than that of the integration test infinite_headers. -/
example : FieldText (b!"random", b!"values") ∧ 2 ≤ 4096 % (fieldLine (b!"random", b!"values")).length :=
  ⟨⟨⟨by decide, by decide, by decide⟩, not_occurs (by decide)⟩, by decide⟩

/-- Such a chunk, and a header section. -/
example : RequestLine .get b!"/" b!"GET / HTTP/1.1" ∧ LineText b!"GET / HTTP/1.1" ∧ (∀ f ∈ [(b!"transfer-encoding", b!"chunked")], FieldText f) ∧
    (∀ x ∈ b!"GET / HTTP/1.1" ++ fieldLines [(b!"transfer-encoding", b!"chunked")], x < 128) ∧ Announces (fieldMap [(b!"transfer-encoding", b!"chunked")]) false (.ok .chunked) ∧ ChunkText (b!"7", b!"goodbye") ∧
    2 ≤ 3 * 1024 * 1024 % (b!"goodbye").length :=
  ⟨⟨b!"HTTP/1.1", [], by decide, by decide, .inl rfl, by decide⟩, ⟨by decide, by decide, by decide⟩, by simp only [List.mem_singleton, forall_eq]; exact ⟨⟨by decide, by decide, by decide⟩, not_occurs (by decide)⟩,
    by decide +kernel, .chunked (v := b!"chunked") (by decide) (by decide) ⟨[], [], by simp⟩, ⟨by decide, .inl (.digit (d := 7) ⟨by decide, .inl ⟨by decide, by decide⟩⟩), by decide, by decide⟩, by decide⟩

/-- The other hypotheses can be met for any text. -/
example (bs : Bytes) (es : Nat) : (Conn.sample (oneByOne bs)).parser.getD .new = .new ∧ (Conn.sample (oneByOne bs)).reader.Ahead (spaced (bs.map fun b => [.byte b]) []) ∧
    Writable counter 28 (Conn.sample (oneByOne bs)) (List.replicate es []) :=
  ⟨rfl, ⟨rfl, oneByOne_atoms bs⟩, sample_writable _ _ (by simp)⟩

end Verif
