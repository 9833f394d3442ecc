import Verif.Proofs.Refine
import Verif.Model.Parse

/-!
Every parser gives the same outcome on a chunked stream as on the same stream byte by byte, and leaves
the same stream behind.
-/

namespace Verif

open Reader

/-- Byte by byte view of the reader in a parser result. -/
def absOut {α : Type} (q : α × Rd) : α × AR := (q.1, q.2.abs)

theorem readLine_abs (line : Bytes) (r : Rd) :
    readLine line r.abs = mapRd (readLine line r) := by
  simp only [readLine, abs_readUntilLf]
  generalize readUntilLf r = q
  obtain ⟨o, b, r'⟩ := q
  simp only [mapRd]
  by_cases h : utf8Valid b = true
  · simp [h]
  · cases o <;> simp [h]

theorem lineDeframer_abs (line : Bytes) (r : Rd) :
    LineDeframer.parse line r.abs = absOut (LineDeframer.parse line r) := by
  simp only [LineDeframer.parse, readLine_abs]
  generalize readLine line r = q
  obtain ⟨o, b, r'⟩ := q
  cases o with
  | ok =>
    simp only [mapRd]
    cases popChar b with
    | none => rfl
    | some p =>
      obtain ⟨x, y⟩ := p
      simp only
      split <;> rfl
  | _ => rfl

theorem crlfLine_abs (prof : Profile) (line : Bytes) (r : Rd) :
    CrlfLineParser.parse prof line r.abs = absOut (CrlfLineParser.parse prof line r) := by
  simp only [CrlfLineParser.parse]
  cases prof.sub maxLineSize line.length with
  | none => rfl
  | some lim =>
    simp only [← abs_push, lineDeframer_abs]
    generalize LineDeframer.parse line (push lim r) = q
    obtain ⟨o, r'⟩ := q
    cases o <;> rfl

theorem headersLoop_abs (prof : Profile) (f : Nat) (p : HeadersParser) (r : Rd) :
    HeadersParser.loop prof f p r.abs = absOut (HeadersParser.loop prof f p r) := by
  induction f generalizing p r with
  | zero => rfl
  | succ f ih =>
    simp only [HeadersParser.loop, crlfLine_abs]
    generalize CrlfLineParser.parse prof p.inner r = q
    obtain ⟨o, r'⟩ := q
    cases o with
    | done line =>
      simp only [absOut]
      split
      · rfl
      · cases parseHeader line with
        | ok hv => simp only [ih, absOut]
        | error e => rfl
    | _ => rfl

theorem headersParse_abs (prof : Profile) (p : HeadersParser) (r : Rd) :
    HeadersParser.parse prof p r.abs = absOut (HeadersParser.parse prof p r) := by
  simp only [HeadersParser.parse]
  cases prof.sub maxHeadersSize p.read with
  | none => rfl
  | some lim =>
    simp only [← abs_push, ← abs_fuel, headersLoop_abs]
    rfl

theorem bytesDeframer_abs (p : BytesDeframer) (r : Rd) :
    BytesDeframer.parse p r.abs = absOut (BytesDeframer.parse p r) := by
  simp only [BytesDeframer.parse, abs_readInto]
  generalize readInto p.size p.filled r = q
  obtain ⟨o, b, r'⟩ := q
  cases o <;> rfl

theorem bytesUntilEof_abs (d : Bytes) (r : Rd) :
    BytesUntilEofDeframer.parse d r.abs = absOut (BytesUntilEofDeframer.parse d r) := by
  simp only [BytesUntilEofDeframer.parse, abs_readToEnd]
  generalize readToEnd d r = q
  obtain ⟨o, b, r'⟩ := q
  cases o <;> rfl

theorem sizeState_abs (prof : Profile) (line : Bytes) (r : Rd) :
    sizeState prof line r.abs = absOut (sizeState prof line r) := by
  simp only [sizeState, crlfLine_abs]
  rfl

theorem dataState_abs (p : BytesDeframer) (body : Bytes) (r : Rd) :
    dataState p body r.abs = absOut (dataState p body r) := by
  simp only [dataState, bytesDeframer_abs]
  rfl

theorem tailingCrlfState_abs (prof : Profile) (line : Bytes) (l : Bool) (r : Rd) :
    tailingCrlfState prof line l r.abs = absOut (tailingCrlfState prof line l r) := by
  simp only [tailingCrlfState, crlfLine_abs]
  rfl

theorem chunksLoop_abs (prof : Profile) (f : Nat) (p : ChunksParser) (r : Rd) :
    ChunksParser.loop prof f p r.abs = absOut (ChunksParser.loop prof f p r) := by
  induction f generalizing p r with
  | zero => rfl
  | succ f ih =>
    obtain ⟨body, state⟩ := p
    simp only [ChunksParser.loop]
    cases state with
    | finished => rfl
    | size line =>
      simp only [sizeState_abs]
      generalize sizeState prof line r = q
      obtain ⟨o, r'⟩ := q
      cases o with
      | done st => simp only [ih, absOut]
      | _ => rfl
    | data p =>
      simp only [dataState_abs]
      generalize dataState p body r = q
      obtain ⟨o, r'⟩ := q
      cases o with
      | done st => simp only [ih, absOut]
      | _ => rfl
    | tailingCrlf line l =>
      simp only [tailingCrlfState_abs]
      generalize tailingCrlfState prof line l r = q
      obtain ⟨o, r'⟩ := q
      cases o with
      | done st => simp only [ih, absOut]
      | _ => rfl

theorem bodyParse_abs (prof : Profile) (p : BodyParser) (r : Rd) :
    BodyParser.parse prof p r.abs = absOut (BodyParser.parse prof p r) := by
  simp only [BodyParser.parse]
  cases prof.sub maxBodySize p.readSoFar with
  | none => rfl
  | some lim =>
    cases p with
    | withSize p => simp only [← abs_push, bytesDeframer_abs]; rfl
    | untilEof d => simp only [← abs_push, bytesUntilEof_abs]; rfl
    | chunked p => simp only [← abs_push, ← abs_fuel, chunksLoop_abs]; rfl
    | empty => rfl

section
variable {T : Type}

theorem messageLoop_abs (prof : Profile) (pf : Bytes → Except ParsingError T) (b : Bool) (f : Nat)
    (st : MsgState T) (r : Rd) :
    MessageParser.loop prof pf b f st r.abs = absOut (MessageParser.loop prof pf b f st r) := by
  induction f generalizing st r with
  | zero => rfl
  | succ f ih =>
    simp only [MessageParser.loop]
    cases st with
    | finished t hs bd => rfl
    | firstLine line =>
      have : firstLineState prof pf line r.abs = absOut (firstLineState prof pf line r) := by
        simp only [firstLineState, crlfLine_abs]; rfl
      simp only [this]
      generalize firstLineState prof pf line r = q
      obtain ⟨o, r'⟩ := q
      cases o with
      | done st => simp only [ih, absOut]
      | _ => rfl
    | headers t p =>
      have : headersState prof t p b r.abs = absOut (headersState prof t p b r) := by
        simp only [headersState, headersParse_abs]; rfl
      simp only [this]
      generalize headersState prof t p b r = q
      obtain ⟨o, r'⟩ := q
      cases o with
      | done st => simp only [ih, absOut]
      | _ => rfl
    | body t hs p =>
      have : bodyState prof t hs p r.abs = absOut (bodyState prof t hs p r) := by
        simp only [bodyState, bodyParse_abs]; rfl
      simp only [this]
      generalize bodyState prof t hs p r = q
      obtain ⟨o, r'⟩ := q
      cases o with
      | done st => simp only [ih, absOut]
      | _ => rfl

end

theorem requestParse_abs (prof : Profile) (p : RequestParser) (r : Rd) :
    RequestParser.parse prof p r.abs = absOut (RequestParser.parse prof p r) := by
  simp only [RequestParser.parse, messageLoop_abs]
  rfl

theorem responseParse_abs (prof : Profile) (p : ResponseParser) (r : Rd) :
    ResponseParser.parse prof p r.abs = absOut (ResponseParser.parse prof p r) := by
  simp only [ResponseParser.parse, messageLoop_abs]
  rfl

end Verif
