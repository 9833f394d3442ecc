import Verif.Proofs.Endless
import Verif.Spec.Endless
import Verif.Props.Serving
import Verif.Props.Limits

/-!
C79: a client that never finishes its request is cut off.
-/

namespace Verif

open Reader

/-- C79: one parse call that begins a request takes at most the budget, whatever the bytes are; and if it then waits for more, all
of the bytes were within it. -/
theorem C79_one_call (prof : Profile) {bs : Bytes} {r r' : Rd} (hr : r.Ahead (bs.map .byte)) {o : Out RequestParser Request}
    (h : RequestParser.parse prof .new r = (o, r')) : ∃ t u, bs = t ++ u ∧ r'.Ahead (u.map .byte) ∧ t.length ≤ callBudget ∧
      ((∃ p, o = .io p .wouldBlock) → u = []) := by
  obtain ⟨t, u, h1, h2, h3, h4⟩ := request_plain prof hr h
  refine ⟨t, u, h1, h2, h3, ?_⟩
  rintro ⟨p, rfl⟩
  rcases (h4 p _ rfl).1 with h5 | h5
  · cases h5
  · exact h5.2

/-- The hypotheses can be met, and the call may end in each of the ways. -/
example : ((RequestParser.parse ⟨true⟩ .new (Rd.sample [.data b!"GET / HT"])).1 = .io (.firstLine b!"GET / HT") .wouldBlock) := by
  decide +kernel

theorem head_blank (l : Bytes) (fs : List (Bytes × Bytes)) (c : Bytes) : Occurs b!"\r\n\r\n" (l ++ CRLF ++ fieldLines fs ++ CRLF ++ c) := by
  rcases List.eq_nil_or_concat fs with rfl | ⟨fs', f, rfl⟩
  · exact ⟨l, c, by simp [fieldLines, CRLF, CR, LF]⟩
  · exact ⟨l ++ CRLF ++ fieldLines fs' ++ fieldLine f, c, by simp [fieldLines, CRLF, CR, LF]⟩

theorem RequestText.blank {w : Bytes} {q : Request} (h : RequestText w q) : Occurs b!"\r\n\r\n" w := by
  obtain ⟨line, fs, f, bw, -, hm, -⟩ := h
  rw [hm.wire]
  exact head_blank _ _ _

theorem Occurs.mono {s a b : Bytes} (h : Occurs s a) (hp : a <+: b) : Occurs s b := by
  obtain ⟨x, y, rfl⟩ := h
  obtain ⟨z, rfl⟩ := hp
  exact ⟨x, y ++ z, by simp⟩

theorem Occurs.lf {a : Bytes} (h : Occurs b!"\r\n\r\n" a) : LF ∈ a := by
  obtain ⟨x, y, rfl⟩ := h
  simp [LF]

/-- Something that is neither a request nor waited for is refused, whatever follows. -/
theorem rejects_of {prof : Profile} {bs : Bytes} {r : Rd} (hr : r.Ahead (bs.map .byte))
    (hd : ∀ q, (RequestParser.parse prof .new r).1 ≠ .done q) (hw : ∀ p, (RequestParser.parse prof .new r).1 ≠ .io p .wouldBlock)
    (X : List Atom) : Rejects prof (bs.map .byte ++ X) := by
  obtain ⟨t, u, -, -, -, h4⟩ := request_plain prof hr (o := (RequestParser.parse prof .new r).1) rfl
  have h1 := (request_isWrap prof).ahead (p := RequestParser.new) hr
  simp only [wrap, Prod.mk.injEq] at h1
  obtain ⟨r2, hr2⟩ := Rd.exists_ahead (bs.map .byte ++ X)
  have h2 := (request_isWrap prof).ahead (p := RequestParser.new) hr2
  simp only [wrap, Prod.mk.injEq] at h2
  cases hx : mrun prof parseRequestLine false RequestParser.new ⟨[], bs.map .byte⟩ with
  | mk o1 r1 =>
  rw [hx] at h1
  rw [mrun_append X hx (by
    intro s hs
    rw [hs] at h1
    exact hw s h1.1.symm)] at h2
  have he := h1.1.symm.trans h2.1
  refine ⟨r2, hr2, ?_⟩
  rw [← he]
  cases hx : (RequestParser.parse prof .new r).1 with
  | done q => exact absurd hx (hd q)
  | perr e => exact .inl ⟨e, rfl⟩
  | panic => exact absurd hx (C16_first_call_partial prof r)
  | diverge => exact absurd hx (C17_request_parse_returns prof .new r).1
  | io p e =>
    right
    rcases (h4 p e hx).1 with rfl | ⟨rfl, -⟩
    · exact ⟨p, _, rfl, by simp, by simp, by simp⟩
    · exact absurd hx (hw p)

/-- C79: bytes without an end are refused in the call that reads them, whatever follows them. -/
theorem C79_endless_refused (prof : Profile) {bs : Bytes} (h : Endless bs) (X : List Atom) : Rejects prof (bs.map .byte ++ X) := by
  obtain ⟨r, hr⟩ := Rd.exists_ahead (bs.map .byte)
  have hd : ∀ q, (RequestParser.parse prof .new r).1 = .done q → ∃ t, t <+: bs ∧ RequestText t q := by
    intro q hq
    obtain ⟨pre, line, fs, f, bw, h1, -, -, h4, h5, h6, -⟩ := requestOne_done (Prod.ext hq rfl) hr.1
    rw [hr.2] at h1
    obtain ⟨t, u, rfl, rfl, hu⟩ := List.map_eq_append_iff.1 h1
    rw [bytesOf_map] at h5
    exact ⟨t, ⟨u, rfl⟩, line, fs, f, bw, h4, h5, h6⟩
  have hw : ∀ p, (RequestParser.parse prof .new r).1 = .io p .wouldBlock → bs.length ≤ callBudget ∧
      ((bs.length ≤ 512 + 4096 ∨ Occurs b!"\r\n\r\n" bs) ∧ (bs.length ≤ 512 ∨ LF ∈ bs)) := by
    intro p hp
    obtain ⟨t, u, h1, h2, h3, h4⟩ := request_plain prof hr (Prod.ext hp rfl)
    obtain ⟨h5, h6, h7⟩ := h4 p _ rfl
    rcases h5 with h5 | ⟨-, rfl⟩
    · cases h5
    rw [List.append_nil] at h1
    subst h1
    have ha := requestParse_ahead (prof := prof) (p := .new) hr
    rw [hp] at ha
    obtain ⟨pre, kept, dropped, k1, k2, -, k4, -⟩ := (request_run (MsgSt.start prof _ false) ha).2 p _ rfl (by simp)
    have k5 := k1.atoms
    have hpre : kept <+: bs := by
      have h8 := congrArg bytesOf k5
      rw [bytesOf_append, bytesOf_map, k2, List.append_assoc] at h8
      exact ⟨_, h8.symm⟩
    rw [List.nil_append] at k4
    refine ⟨h3, ?_⟩
    have hl : ∀ {x : Bytes}, x <+: bs → LF ∈ x → LF ∈ bs := fun hx hm => hx.subset hm
    have k4' : ∃ ended, MsgSt prof parseRequestLine false false ended p kept := ⟨_, k4⟩
    obtain ⟨ended, k4'⟩ := k4'
    cases k4' with
    | firstLine => have := h6 _ rfl; exact ⟨.inl (by omega), .inl this⟩
    | headers =>
      refine ⟨.inl (h7 _ _ rfl), .inr (hl hpre (by simp [CRLF]))⟩
    | body =>
      have := (head_blank _ _ _).mono hpre
      exact ⟨.inr this, .inr this.lf⟩
    | finished _ hm =>
      have h9 := hm.wire
      subst h9
      have := (head_blank _ _ _).mono hpre
      exact ⟨.inr this, .inr this.lf⟩
  refine rejects_of hr ?_ ?_ X
  · intro q hq
    obtain ⟨t, h1, h2⟩ := hd q hq
    rcases h with ⟨-, h⟩ | ⟨-, h⟩ | ⟨-, h⟩
    · exact h (h2.blank.mono h1).lf
    · exact h (h2.blank.mono h1)
    · exact h t q h1 h2
  · intro p hp
    obtain ⟨h1, h2, h3⟩ := hw p hp
    rcases h with ⟨h, h'⟩ | ⟨h, h'⟩ | ⟨h, -⟩
    · exact h3.elim (by omega) h'
    · exact h2.elim (by omega) h'
    · omega

/-- C79: a request of more than the budget of which something is missing still is without end. -/
theorem C79_unfinished {bs z : Bytes} {q : Request} (h : RequestText (bs ++ z) q) (hz : z ≠ []) (hlen : callBudget < bs.length) :
    Endless bs := by
  refine .inr (.inr ⟨hlen, ?_⟩)
  rintro t q' ⟨u, rfl⟩ ht
  have h1 := (request_unique (a := u ++ z) (a' := []) ht h (by simp)).1
  have h2 := congrArg List.length h1
  have h3 := List.length_pos_iff.2 hz
  simp only [List.length_append] at h2
  omega

variable {σ : Type} {rt : Router σ} {prof : Profile} {n : Nat}

/-- C79: the server answers the requests before, then sends one 400 response and closes, if what comes without end begins in the
invocation of the handler that reads it. -/
theorem C79_cut_off_partial {ms : List (Bytes × Request)} (hms : ∀ m ∈ ms, FittingRequest m.1 m.2)
    (hopen : ∀ m ∈ ms, ¬ CloseAsked m.2) {ps : List Bytes} (hps : PausesWell ps) {last : Bytes}
    (he : ps.flatten ++ last = ms.flatMap Prod.fst)
    {c : Conn Rd Nbw} (hp : c.parser.getD .new = .new) {bs : Bytes} (hbs : Endless bs) {X : List Atom}
    (hr : c.reader.Ahead (spaced (ps.map fun a => a.map .byte) (last.map .byte ++ (bs.map .byte ++ X))))
    {es : List (List WEv)} (hlen : ps.length < es.length) (hw : Writable rt n c es)
    {s s' : σ} {out : Bytes} (hs : Served rt s (ms.map Prod.snd) out s') :
    ∃ c', handleAll prof rt es (.live c) s = (.gone c', s') ∧
      c'.writer.total = c.writer.total ++ out ++ b!"HTTP/1.1 400 Bad Request\r\n\r\n" ∧
      c.writer.sock.sent <+: c'.writer.sock.sent :=
  C35_rejected_partial hms hopen hps he hp (C79_endless_refused prof hbs X) hr hlen hw hs

/-! ### The texts of the integration tests -/

theorem again_add (k m : Nat) (b : Bytes) : again (k + m) b = again k b ++ again m b := by
  rw [again, List.replicate_append_replicate.symm, List.flatten_append]; rfl

theorem again_length (k : Nat) (b : Bytes) : (again k b).length = k * b.length := by
  simp [again]

/-- What is refused is refused with anything after it. -/
theorem endless_then (prof : Profile) {a b : Bytes} (h : Endless a) : Rejects prof ((a ++ b).map .byte) := by
  rw [List.map_append]
  exact C79_endless_refused prof h _

/-- `infinite_connection`, tests/http_server.rs 397-419. -/
example (prof : Profile) (k : Nat) (hk : 129 ≤ k) : Rejects prof ((again k b!"blah").map .byte) := by
  obtain ⟨m, rfl⟩ := Nat.exists_eq_add_of_le hk
  rw [again_add]
  exact endless_then prof (.inl ⟨by decide +kernel, by decide +kernel⟩)

/-- A line feed is followed by a carriage return. -/
def lfcr : Bytes → Bool
  | a :: b :: t => (a == LF && b == CR) || lfcr (b :: t)
  | _ => false

theorem lfcr_append {a b : Bytes} (hb : b.head? ≠ some CR) (h : lfcr a = false) (h' : lfcr b = false) : lfcr (a ++ b) = false := by
  induction a with
  | nil => exact h'
  | cons x a ih =>
    cases a with
    | nil =>
      cases b with
      | nil => rfl
      | cons y b =>
        have : y ≠ CR := by simpa using hb
        simp [lfcr, this, h']
    | cons z a =>
      simp only [lfcr, List.cons_append, Bool.or_eq_false_iff] at h ih ⊢
      exact ⟨h.1, ih h.2⟩

theorem lfcr_again {b : Bytes} (hb : b.head? ≠ some CR) (h : lfcr b = false) (k : Nat) : lfcr (again k b) = false ∧ (again k b).head? ≠ some CR := by
  induction k with
  | zero => simp [again, lfcr]
  | succ k ih =>
    have e : again (k + 1) b = b ++ again k b := by simp [again, List.replicate_succ]
    rw [e]
    refine ⟨lfcr_append ih.2 h ih.1, ?_⟩
    cases b with
    | nil => exact ih.2
    | cons x b => simpa using hb

theorem lfcr_blank {s : Bytes} (h : lfcr s = false) : ¬ Occurs b!"\r\n\r\n" s := by
  rintro ⟨a, b, rfl⟩
  induction a with
  | nil => simp [lfcr, LF, CR] at h
  | cons x a ih =>
    refine ih ?_
    cases a with
    | nil => simp only [lfcr, List.cons_append, List.nil_append, Bool.or_eq_false_iff] at h ⊢; exact h.2
    | cons z a => simp only [lfcr, List.cons_append, Bool.or_eq_false_iff] at h ⊢; exact h.2

theorem not_occurs {a b : Bytes} (h : containsStr b a = false) : ¬ Occurs a b := by
  rw [← occurs_iff, h]; simp

/-- `infinite_headers`, tests/http_server.rs 446-470. -/
example (prof : Profile) (k : Nat) (hk : 320 ≤ k) :
    Rejects prof ((b!"GET / HTTP/1.1\r\n" ++ again k b!"random: value\r\n").map .byte) := by
  obtain ⟨m, rfl⟩ := Nat.exists_eq_add_of_le hk
  rw [again_add, ← List.append_assoc]
  exact endless_then prof (.inr (.inl ⟨by rw [List.length_append, again_length]; decide,
    lfcr_blank (lfcr_append (lfcr_again (by decide) (by decide) _).2 (by decide) (lfcr_again (by decide) (by decide) _).1)⟩))

/-- `infinite_header_value`, tests/http_server.rs 472-496. -/
example (prof : Profile) (k : Nat) (hk : 800 ≤ k) :
    Rejects prof ((b!"GET / HTTP/1.1\r\nheader: " ++ again k b!"blah\r\n").map .byte) := by
  obtain ⟨m, rfl⟩ := Nat.exists_eq_add_of_le hk
  rw [again_add, ← List.append_assoc]
  exact endless_then prof (.inr (.inl ⟨by rw [List.length_append, again_length]; decide,
    lfcr_blank (lfcr_append (lfcr_again (by decide) (by decide) _).2 (by decide) (lfcr_again (by decide) (by decide) _).1)⟩))

/-- `infinite_chunked_body`, tests/http_server.rs 498-522. -/
example (prof : Profile) (k : Nat) (hk : 315034 ≤ k) :
    Rejects prof ((b!"GET / HTTP/1.1\r\ntransfer-encoding: chunked\r\n\r\n" ++ again k b!"5\r\nhello\r\n").map .byte) := by
  have hq : RequestText (b!"GET / HTTP/1.1\r\ntransfer-encoding: chunked\r\n\r\n" ++ again k b!"5\r\nhello\r\n" ++ b!"0\r\n\r\n")
      ⟨b!"/", .get, HeaderMap.fromPairs (fieldMap [(b!"transfer-encoding", b!"chunked")]), again k b!"hello"⟩ := by
    refine ⟨b!"GET / HTTP/1.1", [(b!"transfer-encoding", b!"chunked")], .chunked, again k b!"5\r\nhello\r\n" ++ b!"0\r\n\r\n", ?_, ?_, rfl⟩
    · exact ⟨b!"HTTP/1.1", [], .inr rfl, by show SP ∉ b!"/"; decide, .inl rfl, rfl⟩
    · refine ⟨⟨by decide, by decide, by decide⟩, ?_, ?_, ?_, ?_⟩
      · intro x hx
        rw [List.mem_singleton] at hx
        subst hx
        exact ⟨⟨by decide, by decide, by decide⟩, not_occurs (by decide +kernel)⟩
      · exact .chunked (by decide) (v := b!"chunked") (by decide) ⟨[], [], rfl⟩
      · refine ⟨List.replicate k (b!"5", b!"hello"), b!"0", ?_, by decide, ?_, ?_, ?_⟩
        · intro x hx
          rw [List.mem_replicate] at hx
          rw [hx.2]
          exact ⟨by decide, .inl (.digit ⟨by decide, .inl ⟨by decide, by decide⟩⟩), by decide, by decide⟩
        · exact .inl (.digit ⟨by decide, .inl ⟨by decide, by decide⟩⟩)
        · simp [chunkLines, again, List.flatMap, CRLF, CR, LF]
        · simp [chunkData, again, List.flatMap]
      · simp [fieldLines, fieldLine, CRLF, CR, LF]
  have h := C79_endless_refused prof (C79_unfinished hq (by simp) (by
    rw [List.length_append, again_length]
    simp only [callBudget, List.length_cons, List.length_nil]
    omega)) []
  simpa using h

/-! ### With pauses -/

/-- An invocation of the handler that waits for more. -/
theorem handleAll_waits {c : Conn Rd Nbw} {evs : List WEv} {es : List (List WEv)} (hl : c.reader.lims = []) (hw : Writable rt n c (evs :: es))
    {p : RequestParser} {r' : Rd} (h : RequestParser.parse prof (c.parser.getD .new) c.reader = (.io p .wouldBlock, r')) (s : σ) :
    ∃ w', handleAll prof rt (evs :: es) (.live c) s = handleAll prof rt es (.live ⟨r', w', some p⟩) s ∧
      Writable rt n (⟨r', w', some p⟩ : Conn Rd Nbw) es ∧ w'.total = c.writer.total := by
  obtain ⟨w1, i1, i2, i3, i4⟩ := handle_wait
    (c := { c with writer := { c.writer with sock := { c.writer.sock with evs } } }) hl hw.wake hw.parts h s
  refine ⟨w1, ?_, hw.later (c' := ⟨r', w1, some p⟩) i4 i2, i3⟩
  simp only [handleAll, Slot.wake, i1]

/-- An invocation of the handler that refuses what came. -/
theorem handleAll_refuses {c : Conn Rd Nbw} {evs : List WEv} {es : List (List WEv)} (hl : c.reader.lims = []) (hw : Writable rt n c (evs :: es))
    {r' : Rd} (h : Rejected prof (c.parser.getD .new) c.reader r') (s : σ) :
    ∃ c', handleAll prof rt (evs :: es) (.live c) s = (.gone c', s) ∧
      c'.writer.total = c.writer.total ++ b!"HTTP/1.1 400 Bad Request\r\n\r\n" := by
  obtain ⟨w2, j1, j2, j3, j4⟩ := handle_reject
    (c := { c with writer := { c.writer with sock := { c.writer.sock with evs } } }) hl hw.wake hw.parts h s
  refine ⟨⟨r', w2, none⟩, ?_, j3⟩
  simp only [handleAll, Slot.wake, j1]
  exact handleAll_gone _ _ _

/-- C79 is false: bytes that are not UTF-8 are thrown away at each pause, so a client that sends one such byte at a time
is never cut off, and nothing is sent to it. -/
theorem C79_garbage_false (prof : Profile) (k : Nat) {c : Conn Rd Nbw} (hp : c.parser.getD .new = .new) (X : List Atom)
    (hr : c.reader.Ahead (spaced (List.replicate k [.byte 0x80]) X)) {es : List (List WEv)} (hes : es.length = k) (hw : Writable rt n c es) (s : σ) :
    ∃ c', handleAll prof rt es (.live c) s = (.live c', s) ∧ c'.reader.Ahead X ∧ c'.writer.total = c.writer.total ∧
      (0 < k → c'.parser = some (.firstLine [])) := by
  induction k generalizing c es with
  | zero =>
    cases List.length_eq_zero_iff.1 hes
    exact ⟨c, rfl, hr, rfl, by simp⟩
  | succ k ih =>
    cases es with
    | nil => cases hes
    | cons evs es =>
      obtain ⟨r1, h1, h2⟩ := requestParse_of (prof := prof) (p := .new) hr (o := .io (.firstLine []) .wouldBlock)
        (rest := spaced (List.replicate k [.byte 0x80]) X) (by
          have := (request_block (prof := prof) (p := .new) (ls := []) (r := ⟨[], []⟩) (as := [.byte 0x80]) (p' := .firstLine []) (spaced (List.replicate k [.byte 0x80]) X)
            (by decide) (by rcases prof with ⟨_ | _⟩ <;> decide +kernel)).2
          exact this)
      obtain ⟨w', i1, i2, i3⟩ := handleAll_waits hr.1 hw (by rw [hp]; exact h1) s
      rw [i1]
      obtain ⟨c', j1, j2, j3, j4⟩ := ih (c := ⟨r1, w', some (.firstLine [])⟩) rfl h2 (by simpa using hes) i2
      refine ⟨c', j1, j2, j3.trans i3, fun _ => ?_⟩
      cases k with
      | zero =>
        cases List.length_eq_zero_iff.1 (show es.length = 0 by simpa using hes)
        cases j1
        rfl
      | succ k => exact j4 (by omega)

/-- Reading up to a delimiter that does not come within the limit. -/
theorem scan_over (d : UInt8) {bs : Bytes} (h : d ∉ bs) {l : Nat} (hl : l ≤ bs.length) (X : List Atom) :
    AR.scan d [l] (bs.map .byte ++ X) = (.err .limitReached, bs.take l, [0], (bs.drop l).map .byte ++ X) := by
  induction l generalizing bs with
  | zero => rw [scan_zero d (by simp)]; simp
  | succ l ih =>
    cases bs with
    | nil => simp at hl
    | cons b bs =>
      have hb : b ≠ d := fun hb => h (by simp [hb])
      rw [List.map_cons, List.cons_append, scan_byte hb (by simp), show decN 1 [l + 1] = [l] by simp [decN],
        ih (fun hm => h (by simp [hm])) (by simpa using hl)]
      simp

theorem scan_within (d : UInt8) {bs : Bytes} (h : d ∉ bs) {l : Nat} (hl : bs.length < l) (X : List Atom) :
    AR.scan d [l] (bs.map .byte ++ WB :: X) = (.err .wouldBlock, bs, [l - bs.length], X) := by
  induction bs generalizing l with
  | nil =>
    obtain ⟨k, rfl⟩ : ∃ k, l = k + 1 := ⟨l - 1, by simp at hl; omega⟩
    simp [AR.scan]
  | cons b bs ih =>
    have hb : b ≠ d := fun hb => h (by simp [hb])
    simp only [List.length_cons] at hl
    obtain ⟨k, rfl⟩ : ∃ k, l = k + 1 := ⟨l - 1, by omega⟩
    rw [List.map_cons, List.cons_append, scan_byte hb (by simp), show decN 1 [k + 1] = [k] by simp [decN],
      ih (fun hm => h (by simp [hm])) (by omega)]
    simp

theorem OneLine.ascii {b : Bytes} (h : OneLine b) : utf8Valid b = true := utf8_ascii fun c hc => (h c hc).1

theorem OneLine.noLf {b : Bytes} (h : OneLine b) : LF ∉ b := fun hm => (h _ hm).2 rfl

theorem request_firstLine (prof : Profile) (line : Bytes) (hl : line.length ≤ 512) {as : List Atom} {e : IoError} {bs : Bytes} {ls : List Nat}
    {rest : List Atom} (h : AR.scan LF [512 - line.length] as = (.err e, bs, ls, rest)) (he : e ≠ .invalidData) (hb : utf8Valid bs = true) :
    RequestParser.parse prof (.firstLine line) (⟨[], as⟩ : AR) = (.io (.firstLine (line ++ bs)) e, ⟨ls.tail, rest⟩) := by
  unfold RequestParser.parse
  rw [messageLoop_step _ _ _ _ _ _ rfl]
  simp only [msgStep, firstLineState]
  rw [crlf_eq prof line _ (sub_le prof (show line.length ≤ maxLineSize from hl))]
  simp only [show maxLineSize = 512 from rfl, h, crlfOut, hb, if_true, he, if_false, Out.bind, id]

/-- C79: a first line without end is cut off, with whatever pauses it comes: as soon as 512 bytes of it have arrived, a 400 response is sent and the
connection closed. -/
theorem C79_slow_line_partial {ps : List Bytes} (hps : ∀ a ∈ ps, OneLine a) {l : Bytes} (hlen : 512 ≤ l.length + ps.flatten.length)
    (hl : l.length < 512) {c : Conn Rd Nbw} (hp : c.parser.getD .new = .firstLine l) {X : List Atom}
    (hr : c.reader.Ahead (spaced (ps.map fun a => a.map .byte) X)) {es : List (List WEv)} (hes : ps.length ≤ es.length) (hw : Writable rt n c es)
    (s : σ) : ∃ c', handleAll prof rt es (.live c) s = (.gone c', s) ∧
      c'.writer.total = c.writer.total ++ b!"HTTP/1.1 400 Bad Request\r\n\r\n" := by
  induction ps generalizing c es l with
  | nil => simp at hlen; omega
  | cons a ps ih =>
    cases es with
    | nil => simp at hes
    | cons evs es =>
      have ha := hps a (by simp)
      rw [List.map_cons, spaced] at hr
      rcases Nat.lt_or_ge (l.length + a.length) 512 with h | h
      · obtain ⟨r1, h1, h2⟩ := requestParse_of (prof := prof) (p := .firstLine l) hr
          (request_firstLine prof l (by omega) (scan_within LF ha.noLf (by omega) _) (by simp) ha.ascii)
        obtain ⟨w', i1, i2, i3⟩ := handleAll_waits hr.1 hw (by rw [hp]; exact h1) s
        rw [i1, ← i3]
        exact ih (fun x hx => hps x (by simp [hx])) (l := l ++ a) (by simp only [List.flatten_cons, List.length_append] at hlen ⊢; omega)
          (by simpa using h) (c := ⟨r1, w', some (.firstLine (l ++ a))⟩) rfl h2 (by simpa using hes) i2
      · obtain ⟨r1, h1, h2⟩ := requestParse_of (prof := prof) (p := .firstLine l) hr
          (request_firstLine prof l (by omega) (scan_over LF ha.noLf (by omega) _) (by simp)
            (utf8_ascii fun c hc => (ha c (List.mem_of_mem_take hc)).1))
        exact handleAll_refuses hr.1 hw (r' := r1) (.inr ⟨_, _, by rw [hp]; exact h1, by simp, by simp [isClosed]⟩) s

/-- `infinite_connection_with_sleeps`, tests/http_server.rs 421-444. -/
example (k : Nat) (hk : 128 ≤ k) {c : Conn Rd Nbw} (hp : c.parser = none) {X : List Atom}
    (hr : c.reader.Ahead (spaced (List.replicate k (b!"blah".map .byte)) X)) {es : List (List WEv)} (hes : k ≤ es.length) (hw : Writable rt n c es)
    (s : σ) : ∃ c', handleAll prof rt es (.live c) s = (.gone c', s) ∧
      c'.writer.total = c.writer.total ++ b!"HTTP/1.1 400 Bad Request\r\n\r\n" :=
  C79_slow_line_partial (ps := List.replicate k b!"blah") (l := []) (by
    intro a ha
    rw [(List.mem_replicate.1 ha).2]
    unfold OneLine
    decide) (by simp; omega) (by decide) (by rw [hp]; rfl) (by simpa using hr) (by simpa using hes) hw s

/-- Bytes of which a call needs all are waited for if some are missing. -/
theorem waits_of_done {p : RequestParser} {a z : Bytes} {o : Out RequestParser Request} (hz : z ≠ [])
    (h : RequestParser.parse prof p (⟨[], a.map .byte ++ z.map .byte⟩ : AR) = (o, ⟨[], []⟩)) :
    ∃ p', RequestParser.parse prof p (⟨[], a.map .byte⟩ : AR) = (.io p' .wouldBlock, ⟨[], []⟩) := by
  unfold RequestParser.parse at h ⊢
  cases hx : mrun prof parseRequestLine false p ⟨[], a.map .byte⟩ with
  | mk o1 r1 =>
  have hm : ∀ as, MessageParser.loop prof parseRequestLine false 5 p (⟨[], as⟩ : AR) = mrun prof parseRequestLine false p ⟨[], as⟩ := fun _ => rfl
  simp only [hm] at h ⊢
  by_cases hw : ∃ s, o1 = .io s .wouldBlock
  · obtain ⟨s, rfl⟩ := hw
    refine ⟨s, ?_⟩
    have hb := mrun_block (prof := prof) (pf := parseRequestLine) (b := false) [] (by simp) hx
    have hl := mrun_lims (prof := prof) (pf := parseRequestLine) (b := false) (st := p) (as := a.map .byte)
    rw [hx] at hl ⊢
    obtain ⟨ls, as⟩ := r1
    simp only at hl hb
    rw [hl, hb.1]
    rfl
  · rw [mrun_append _ hx (fun s hs => hw ⟨s, hs⟩)] at h
    have := congrArg (fun x => x.2.atoms) h
    simp only [List.append_eq_nil_iff, List.map_eq_nil_iff] at this
    exact absurd this.2 hz

/-- C79 is false in release builds without bound even for plain text: once a header section has been allowed to exceed 4096 bytes, any number of
further header lines may follow and the server goes on waiting. -/
theorem C79_release_false (k : Nat) (hk : k ≤ 2 ^ 60) : ∃ as : List (List Atom), k ≤ (as.flatMap bytesOf).length ∧ as.length = 4 ∧
    (∀ x ∈ as, AllBytes x) ∧ ∀ {σ : Type} (rt : Router σ) (n : Nat) (c : Conn Rd Nbw) (es : List (List WEv)) (s : σ) (X : List Atom), c.parser.getD .new = .new →
      c.reader.Ahead (spaced as X) → Writable rt n c es → es.length = 4 →
      ∃ c', handleAll ⟨false⟩ rt es (.live c) s = (.live c', s) ∧ c'.reader.Ahead X ∧ c'.writer.total = c.writer.total := by
  obtain ⟨p1, p2, p3, q, step1, step2, step3, hend⟩ := release_steps k hk
  have step4 : ∃ p4 : RequestParser, RequestParser.parse ⟨false⟩ p3 (⟨[], (fieldLines (manyFields k)).map .byte⟩ : AR) = (.io p4 .wouldBlock, ⟨[], []⟩) :=
    waits_of_done (z := CRLF) (by simp [CRLF]) (by rw [← List.map_append]; exact hend)
  obtain ⟨p4, step4⟩ := step4
  refine ⟨[(b!"GET / HTTP/1.1\r\n" ++ fieldLines longFields).map .byte, (b!"a: " ++ List.replicate 87 120).map .byte,
    (List.replicate 90 120 ++ CRLF).map .byte, (fieldLines (manyFields k)).map .byte], ?_, rfl, ?_, ?_⟩
  · simp only [List.flatMap_cons, List.flatMap_nil, List.length_append, bytesOf_map, manyFields_length]
    omega
  · intro x hx
    simp only [List.mem_cons, List.not_mem_nil, or_false] at hx
    rcases hx with rfl | rfl | rfl | rfl <;> exact allBytes_map _
  intro σ rt n c es s X hp hr hw hes
  obtain ⟨e1, e2, e3, e4, rfl⟩ : ∃ e1 e2 e3 e4, es = [e1, e2, e3, e4] := by
    match es, hes with
    | [e1, e2, e3, e4], _ => exact ⟨_, _, _, _, rfl⟩
  simp only [spaced] at hr
  have hb : ∀ b : Bytes, WB ∉ b.map Atom.byte := fun b => by simp
  obtain ⟨r1, h1, hr1⟩ := requestParse_of hr (request_block _ (hb _) step1).2
  obtain ⟨w1, i1, j1, k1⟩ := handleAll_waits hr.1 hw (by rw [hp]; exact h1) s
  obtain ⟨r2, h2, hr2⟩ := requestParse_of hr1 (request_block _ (hb _) step2).2
  obtain ⟨w2, i2, j2, k2⟩ := handleAll_waits hr1.1 j1 h2 s
  obtain ⟨r3, h3, hr3⟩ := requestParse_of hr2 (request_block _ (hb _) step3).2
  obtain ⟨w3, i3, j3, k3⟩ := handleAll_waits hr2.1 j2 h3 s
  obtain ⟨r4, h4, hr4⟩ := requestParse_of hr3 (request_block _ (hb _) step4).2
  obtain ⟨w4, i4, j4, k4⟩ := handleAll_waits hr3.1 j3 h4 s
  rw [i1, i2, i3, i4]
  exact ⟨_, rfl, hr4, k4.trans (k3.trans (k2.trans k1))⟩

theorem chunkLines_le {cs : List (Bytes × Bytes)} (h : ∀ x ∈ cs, ChunkText x) : (chunkLines cs).length ≤ 515 * (chunkData cs).length := by
  induction cs with
  | nil => simp [chunkLines]
  | cons x cs ih =>
    have h1 := ih fun y hy => h y (by simp [hy])
    have h2 := h x (by simp)
    have h3 := h2.short
    have h4 := List.length_pos_iff.2 h2.nonEmpty
    simp only [chunkLines, chunkData, List.flatMap_cons, List.length_append, CRLF, List.length_cons, List.length_nil] at h1 ⊢
    omega

theorem body_wire_le {f : Framing} {p : BodyParser} {c : Bytes} (h : BodySt f p c) (hp : p.held ≤ 6 * 1024 * 1024) :
    c.length ≤ 515 * (6 * 1024 * 1024) + 1024 := by
  cases h with
  | length h1 h2 => omega
  | untilEof h => omega
  | empty => simp
  | chunked h =>
    cases h with
    | size h1 h2 =>
      have h3 := chunkLines_le h1
      have h4 := h2.short
      simp only [BodyParser.held, ChunksParser.held] at hp
      simp only [List.length_append]
      omega
    | data h1 h2 h3 h4 h5 =>
      have h6 := chunkLines_le h1
      simp only [BodyParser.held, ChunksParser.held] at hp
      simp only [List.length_append, CRLF, List.length_cons, List.length_nil]
      omega
    | tailing h1 h2 h3 h4 h5 h6 =>
      have h7 := chunkLines_le h1
      have h8 := h5.short
      simp only [BodyParser.held, ChunksParser.held, List.length_append] at hp
      simp only [List.length_append, CRLF, List.length_cons, List.length_nil]
      omega
    | finished h1 =>
      obtain ⟨cs, last, h2, h3, h4, rfl, rfl⟩ := h1
      have h7 := chunkLines_le h2
      simp only [BodyParser.held, ChunksParser.held] at hp
      simp only [List.length_append, CRLF, List.length_cons, List.length_nil]
      omega

theorem bodyText_wire_le {f : Framing} {w body : Bytes} (h : BodyText f w body) (hp : body.length ≤ 6 * 1024 * 1024)
    (hn : ∀ n, f = .length n → n ≤ 3 * 1024 * 1024) : w.length ≤ 515 * (6 * 1024 * 1024) + 1024 := by
  cases f with
  | length n => obtain ⟨rfl, h2⟩ := h; omega
  | untilEof => cases h; omega
  | noBody => obtain ⟨rfl, -⟩ := h; simp
  | chunked =>
    obtain ⟨cs, last, h2, h3, h4, rfl, rfl⟩ := h
    have h7 := chunkLines_le h2
    simp only [List.length_append, CRLF, List.length_cons, List.length_nil]
    omega

/-- C79 with overflow checks: with any pauses, a server that still waits has received no more than about 3 GB of the request, if that is ASCII
text. -/
theorem C79_slow_bounded_partial (hprof : prof.overflowChecks = true) {r r' : Rd} (hl : r.lims = []) {p : RequestParser}
    (h : Calls (RequestParser.parse prof) .new r (.io p .wouldBlock) r') : ∃ pre, r.src.atoms = pre ++ r'.src.atoms ∧
      ((∀ c ∈ bytesOf pre, c < 128) → (bytesOf pre).length ≤ slowBudget) := by
  obtain ⟨ps, sg, p1, r1, e1, e2, e3, e4⟩ := requestCalls_run h (MsgSt.start prof _ false) hl
  have ha := requestParse_ahead (prof := prof) (p := p1) (Rd.ahead_self e2)
  rw [e4] at ha
  obtain ⟨pre, k, d, hc, hk, hd, hst, hlf⟩ := (request_run e3 ha).2 p _ rfl (by decide)
  have hat := hc.atoms
  simp only [Rd.abs] at hat
  refine ⟨taken ps ++ pre, by rw [e1, hat, List.append_assoc], fun hasc => ?_⟩
  have hkept : bytesOf (taken ps ++ pre) = kept ps ++ k := by
    have := bytesOf_taken_ascii (ps := ps ++ [⟨pre, k, d, hk, hd, hlf⟩]) (by simpa [taken] using hasc)
    simpa [taken, kept] using this.symm
  rw [hkept]
  rw [List.nil_append] at hst
  generalize kept ps ++ k = w at hst
  obtain ⟨ended, hst⟩ : ∃ ended, MsgSt prof parseRequestLine false false ended p w := ⟨_, hst⟩
  unfold slowBudget
  cases hst with
  | firstLine hl => have := hl.short; omega
  | headers h1 h2 h3 h4 h5 =>
    have := h5 hprof
    have := h1.short
    simp only [List.length_append, CRLF, List.length_cons, List.length_nil]
    omega
  | body h1 h2 h3 h4 h5 h6 h7 h8 =>
    have h9 := h1.short
    obtain ⟨h10, h11⟩ := h8 hprof
    have hb := body_wire_le h6 (by omega)
    simp only [List.length_append, CRLF, List.length_cons, List.length_nil]
    omega
  | finished h1 h2 h3 h4 h5 h6 h7 =>
    have h9 := h2.lineOk.short
    obtain ⟨h10, h11⟩ := h6 hprof
    rw [h2.wire]
    have hb := bodyText_wire_le h2.bodyOk (by omega) (fun n hn => by have := h7 n hn; omega)
    simp only [List.length_append, CRLF, List.length_cons, List.length_nil]
    omega

/-- The hypotheses of the last theorem can be met. -/
example : ∃ r', Calls (RequestParser.parse ⟨true⟩) .new
    (Rd.sample [.data b!"GET / HT", .err .wouldBlock, .data b!"TP/1.1\r\n"]) (.io (.headers (.get, b!"/") .new) .wouldBlock) r' ∧ r'.Ahead [] :=
  calls_of (requestParse_abs _) 1 (as := b!"GET / HT".map .byte ++ .err .wouldBlock ::
    b!"TP/1.1\r\n".map .byte) ⟨rfl, rfl⟩ (by decide +kernel)

/-- So can those about the server: a new connection on which the client sends without end. -/
example : (Conn.sample [.data (again 129 b!"blah")]).parser.getD .new = .new ∧ Endless (again 129 b!"blah") ∧
    (Conn.sample [.data (again 129 b!"blah")]).reader.Ahead ((again 129 b!"blah").map .byte) ∧
    Writable counter 28 (Conn.sample [.data (again 129 b!"blah")]) [[], []] :=
  ⟨rfl, .inl ⟨by decide +kernel, by decide +kernel⟩, ⟨rfl, by decide +kernel⟩, sample_writable _ _ (by simp)⟩

end Verif
