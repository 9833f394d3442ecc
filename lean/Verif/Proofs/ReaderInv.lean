import Verif.Model.Parse

/-!
What every reading operation keeps, the parsers keep.
-/

namespace Verif

open Reader

section

variable {R : Type} [Reader R]

/-- The reading operations keep `I`. -/
structure ReaderKeeps (I : R → Prop) : Prop where
  push : ∀ l r, I r → I (Reader.push l r)
  pop : ∀ r, I r → I (Reader.pop r)
  untilLf : ∀ r, I r → I (readUntilLf r).2.2
  into : ∀ n d r, I r → I (readInto n d r).2.2
  toEnd : ∀ d r, I r → I (readToEnd d r).2.2

variable {I : R → Prop} (h : ReaderKeeps I)
include h

namespace ReaderKeeps

theorem lineDeframer (line : Bytes) {r : R} (hr : I r) : I (LineDeframer.parse line r).2 := by
  have := h.untilLf r hr
  unfold LineDeframer.parse readLine
  generalize readUntilLf r = q at this
  obtain ⟨o, b, r'⟩ := q
  dsimp only at this ⊢
  by_cases hu : utf8Valid b = true
  · simp only [hu, if_true]
    cases o with
    | ok =>
      dsimp only
      cases popChar (line ++ b) with
      | none => exact this
      | some x => dsimp only; split <;> exact this
    | _ => exact this
  · simp only [hu]
    cases o <;> exact this

theorem crlf (prof : Profile) (line : Bytes) {r : R} (hr : I r) : I (CrlfLineParser.parse prof line r).2 := by
  unfold CrlfLineParser.parse
  split
  · exact hr
  · next lim _ =>
    have := h.lineDeframer line (h.push lim r hr)
    generalize LineDeframer.parse line (Reader.push lim r) = q at this
    obtain ⟨o, r'⟩ := q
    cases o <;> exact h.pop _ this

theorem headersLoop (prof : Profile) (f : Nat) (p : HeadersParser) {r : R} (hr : I r) : I (HeadersParser.loop prof f p r).2 := by
  induction f generalizing p r with
  | zero => exact hr
  | succ f ih =>
    rw [HeadersParser.loop]
    have := h.crlf prof p.inner hr
    generalize CrlfLineParser.parse prof p.inner r = q at this
    obtain ⟨o, r'⟩ := q
    cases o with
    | done line =>
      dsimp only at this ⊢
      split
      · exact this
      · cases parseHeader line with
        | ok hv => exact ih _ this
        | error e => exact this
    | _ => exact this

theorem headers (prof : Profile) (p : HeadersParser) {r : R} (hr : I r) : I (HeadersParser.parse prof p r).2 := by
  unfold HeadersParser.parse
  split
  · exact hr
  · exact h.pop _ (h.headersLoop prof _ p (h.push _ r hr))

theorem bytes (p : BytesDeframer) {r : R} (hr : I r) : I (BytesDeframer.parse p r).2 := by
  unfold BytesDeframer.parse
  have := h.into p.size p.filled r hr
  generalize readInto p.size p.filled r = q at this
  obtain ⟨o, b, r'⟩ := q
  cases o <;> exact this

theorem untilEof (d : Bytes) {r : R} (hr : I r) : I (BytesUntilEofDeframer.parse d r).2 := by
  unfold BytesUntilEofDeframer.parse
  have := h.toEnd d r hr
  generalize readToEnd d r = q at this
  obtain ⟨o, b, r'⟩ := q
  cases o <;> exact this

theorem chunksLoop (prof : Profile) (f : Nat) (p : ChunksParser) {r : R} (hr : I r) : I (ChunksParser.loop prof f p r).2 := by
  induction f generalizing p r with
  | zero => exact hr
  | succ f ih =>
    obtain ⟨body, st⟩ := p
    cases st with
    | finished => exact hr
    | size line =>
      have : I (sizeState prof line r).2 := h.crlf prof line hr
      simp only [ChunksParser.loop]
      generalize sizeState prof line r = q at this
      obtain ⟨o, r'⟩ := q
      cases o <;> first | exact this | exact ih _ this
    | data b =>
      have : I (dataState b body r).2 := h.bytes b hr
      simp only [ChunksParser.loop]
      generalize dataState b body r = q at this
      obtain ⟨o, r'⟩ := q
      cases o <;> first | exact this | exact ih _ this
    | tailingCrlf line l =>
      have : I (tailingCrlfState prof line l r).2 := h.crlf prof line hr
      simp only [ChunksParser.loop]
      generalize tailingCrlfState prof line l r = q at this
      obtain ⟨o, r'⟩ := q
      cases o <;> first | exact this | exact ih _ this

theorem body (prof : Profile) (p : BodyParser) {r : R} (hr : I r) : I (BodyParser.parse prof p r).2 := by
  unfold BodyParser.parse
  split
  · exact hr
  · cases p with
    | withSize p => exact h.pop _ (h.bytes p (h.push _ r hr))
    | untilEof d => exact h.pop _ (h.untilEof d (h.push _ r hr))
    | chunked p => exact h.pop _ (h.chunksLoop prof _ p (h.push _ r hr))
    | empty => exact hr

theorem message {T : Type} (prof : Profile) (pf : Bytes → Except ParsingError T) (b : Bool) (f : Nat) (st : MsgState T) {r : R} (hr : I r) :
    I (MessageParser.loop prof pf b f st r).2 := by
  induction f generalizing st r with
  | zero => exact hr
  | succ f ih =>
    cases st with
    | finished => exact hr
    | firstLine line =>
      have : I (firstLineState prof pf line r).2 := h.crlf prof line hr
      simp only [MessageParser.loop]
      generalize firstLineState prof pf line r = q at this
      obtain ⟨o, r'⟩ := q
      cases o <;> first | exact this | exact ih _ this
    | headers t p =>
      have : I (headersState prof t p b r).2 := h.headers prof p hr
      simp only [MessageParser.loop]
      generalize headersState prof t p b r = q at this
      obtain ⟨o, r'⟩ := q
      cases o <;> first | exact this | exact ih _ this
    | body t hs p =>
      have : I (bodyState prof t hs p r).2 := h.body prof p hr
      simp only [MessageParser.loop]
      generalize bodyState prof t hs p r = q at this
      obtain ⟨o, r'⟩ := q
      cases o <;> first | exact this | exact ih _ this

theorem request (prof : Profile) (p : RequestParser) {r : R} (hr : I r) : I (RequestParser.parse prof p r).2 := h.message prof _ _ 5 p hr

theorem response (prof : Profile) (p : ResponseParser) {r : R} (hr : I r) : I (ResponseParser.parse prof p r).2 := h.message prof _ _ 5 p hr

end ReaderKeeps

end

/-! ## The buffer never holds more than fits -/

/-- The buffer of the reader holds at most as much as fits. -/
def Src.Fits (n : Nat) (s : Src) : Prop := s.cap = n ∧ s.buf.length ≤ n

theorem rawRead_le (n : Nat) (es : List Ev) {b : Bytes} {es' : List Ev} (h : rawRead n es = (.ok b, es')) : b.length ≤ n := by
  cases es with
  | nil => cases h
  | cons e es =>
    cases e with
    | err e => cases h
    | data d =>
      unfold rawRead at h
      dsimp only at h
      by_cases hd : d.length ≤ n
      · rw [if_pos hd] at h
        cases h
        exact hd
      · rw [if_neg hd] at h
        cases h
        exact List.length_take_le ..

section
variable {n : Nat}

theorem Src.Fits.fillBuf {s : Src} (h : s.Fits n) : s.fillBuf.2.Fits n := by
  unfold Src.fillBuf
  split
  · cases hr : rawRead s.cap s.evs with
    | mk x es =>
    cases x with
    | ok b => exact ⟨h.1, h.1 ▸ rawRead_le _ _ hr⟩
    | error e => exact h
  · exact h

theorem Src.Fits.consume {s : Src} (h : s.Fits n) (k : Nat) : (s.consume k).Fits n :=
  ⟨h.1, by have := h.2; simp only [Src.consume, List.length_drop]; omega⟩

theorem Src.Fits.read {s : Src} (h : s.Fits n) (k : Nat) : (s.read k).2.Fits n := by
  unfold Src.read
  split
  · cases rawRead k s.evs with
    | mk x es => cases x <;> exact h
  · have := h.fillBuf
    generalize s.fillBuf = q at this
    obtain ⟨x, s'⟩ := q
    cases x with
    | ok b => exact Src.Fits.consume this _
    | error e => exact this

theorem fillBufL_fits (ls : List Nat) {s : Src} (h : s.Fits n) : (Rd.fillBufL ls s).2.Fits n := by
  induction ls with
  | nil => exact h.fillBuf
  | cons l ls ih =>
    unfold Rd.fillBufL
    split
    · exact h
    · generalize Rd.fillBufL ls s = q at ih
      obtain ⟨x, s'⟩ := q
      cases x <;> exact ih

theorem consumeL_fits (ls : List Nat) {s : Src} (h : s.Fits n) (k : Nat) : (Rd.consumeL ls s k).2.Fits n := by
  induction ls generalizing k with
  | nil => exact h.consume k
  | cons l ls ih => exact ih (min k l)

theorem readL_fits (ls : List Nat) {s : Src} (h : s.Fits n) (k : Nat) : (Rd.readL ls s k).2.2.Fits n := by
  induction ls generalizing k with
  | nil => exact h.read k
  | cons l ls ih =>
    unfold Rd.readL
    split
    · exact h
    · have := ih (min k l)
      generalize Rd.readL ls s (min k l) = q at this
      obtain ⟨x, ls', s'⟩ := q
      cases x <;> exact this

theorem readUntil_fits (d : UInt8) (f : Nat) (acc : Bytes) (ls : List Nat) {s : Src} (h : s.Fits n) : (Rd.readUntil d f acc ls s).2.2.2.Fits n := by
  induction f generalizing acc ls s with
  | zero => exact h
  | succ f ih =>
    unfold Rd.readUntil
    have h1 := fillBufL_fits ls h
    generalize Rd.fillBufL ls s = q at h1
    obtain ⟨x, s'⟩ := q
    cases x with
    | error e => cases e <;> first | exact ih _ _ h1 | exact h1
    | ok av =>
      dsimp only at h1 ⊢
      cases Rd.memchr d av with
      | some i => exact consumeL_fits ls h1 _
      | none =>
        dsimp only
        have h2 := consumeL_fits ls h1 av.length
        split
        · exact h2
        · exact ih _ _ h2

theorem readToEnd_fits (f : Nat) (acc : Bytes) (ls : List Nat) {s : Src} (h : s.Fits n) : (Rd.readToEndLoop f acc ls s).2.2.2.Fits n := by
  induction f generalizing acc ls s with
  | zero => exact h
  | succ f ih =>
    unfold Rd.readToEndLoop
    have h1 := readL_fits ls h (s.offer acc.length + 1)
    generalize Rd.readL ls s (s.offer acc.length + 1) = q at h1
    obtain ⟨x, ls', s'⟩ := q
    cases x with
    | error e => cases e <;> first | exact ih _ _ h1 | exact h1
    | ok b =>
      dsimp only at h1 ⊢
      split
      · exact h1
      · exact ih _ _ h1

theorem readInto_fits (size f : Nat) (acc : Bytes) (ls : List Nat) {s : Src} (h : s.Fits n) : (Rd.readIntoLoop size f acc ls s).2.2.2.Fits n := by
  induction f generalizing acc ls s with
  | zero => exact h
  | succ f ih =>
    unfold Rd.readIntoLoop
    split
    · have h1 := readL_fits ls h (size - acc.length)
      generalize Rd.readL ls s (size - acc.length) = q at h1
      obtain ⟨x, ls', s'⟩ := q
      cases x with
      | error e => exact h1
      | ok b =>
        dsimp only at h1 ⊢
        split
        · exact h1
        · exact ih _ _ h1
    · exact h

theorem readerKeeps_fits : ReaderKeeps (fun r : Rd => r.src.Fits n) where
  push _ _ h := h
  pop _ h := h
  untilLf r h := readUntil_fits LF _ _ r.lims h
  into size d r h := readInto_fits size _ d r.lims h
  toEnd d r h := readToEnd_fits _ d r.lims h

end

end Verif
