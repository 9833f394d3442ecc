import Verif.Proofs.Message

/-!
The parser never keeps more than 512 bytes of an unfinished line, whatever error it is resumed after.
-/

namespace Verif

theorem popChar_length {s a b : Bytes} (h : popChar s = some (a, b)) : a.length ≤ s.length := by
  rw [popChar_append h]; simp

theorem crlf_short {prof : Profile} {line : Bytes} (hl : line.length ≤ 512) {a r : AR} {s : Bytes} {e : IoError}
    (h : CrlfLineParser.parse prof line a = (.io s e, r)) : s.length ≤ 512 := by
  obtain ⟨ls, as⟩ := a
  rw [crlf_eq prof line (512 - line.length) (sub_le prof (by simpa [maxLineSize] using hl))] at h
  simp only [Prod.mk.injEq] at h
  obtain ⟨-, -, -, hb⟩ := scan_spec LF ((512 - line.length) :: ls) as
  have hb := hb (512 - line.length) (by simp)
  have h := h.1
  generalize (AR.scan LF ((512 - line.length) :: ls) as).1 = o at h
  generalize (AR.scan LF ((512 - line.length) :: ls) as).2.1 = bs at h hb
  have hlen : (line ++ bs).length ≤ 512 := by simp only [List.length_append]; omega
  unfold crlfOut at h
  by_cases hv : utf8Valid bs = true
  · simp only [hv, if_true] at h
    cases o with
    | ok =>
      simp only at h
      cases hp : popChar (line ++ bs) with
      | none => simp only [hp, Out.io.injEq] at h; rw [← h.1]; exact hlen
      | some x =>
        obtain ⟨rest, c⟩ := x
        simp only [hp] at h
        by_cases hc : c = [LF]
        · simp only [hc, if_true] at h
          cases hq : parseCrlfLine rest <;> simp [hq, Out.ofExcept] at h
        · simp only [hc, if_false, Out.io.injEq] at h
          rw [← h.1]
          exact Nat.le_trans (popChar_length hp) hlen
    | err e' =>
      simp only at h
      by_cases he : e' = .invalidData
      · simp [he] at h
      · simp only [he, if_false, Out.io.injEq] at h; rw [← h.1]; exact hlen
    | diverge => simp at h
  · simp only [hv] at h
    cases o with
    | ok => simp at h
    | err e' =>
      by_cases he : e' = .invalidData
      · simp [he] at h
      · simp [he] at h; rw [← h.1]; exact hl
    | diverge => simp at h

theorem headersLoop_short {prof : Profile} (f : Nat) {p p' : HeadersParser} (hp : p.inner.length ≤ 512) {r r' : AR}
    {e : IoError} (h : HeadersParser.loop prof f p r = (.io p' e, r')) : p'.inner.length ≤ 512 := by
  induction f generalizing p r with
  | zero => simp [HeadersParser.loop] at h
  | succ f ih =>
    simp only [HeadersParser.loop] at h
    generalize hq : CrlfLineParser.parse prof p.inner r = q at h
    obtain ⟨o, r1⟩ := q
    cases o with
    | io s e' =>
      simp only [Prod.mk.injEq, Out.io.injEq] at h
      rw [← h.1.1]; exact crlf_short hp hq
    | done l =>
      simp only at h
      by_cases hl : l = []
      · simp [hl] at h
      · simp only [hl, if_false] at h
        cases hh : parseHeader l with
        | error e => simp [hh] at h
        | ok x =>
          simp only [hh] at h
          exact ih (by simp) h
    | _ => simp at h

/-- The unfinished line of a chunk parser. -/
def ChunkState.line : ChunkState → Bytes
  | .size line => line
  | .tailingCrlf line _ => line
  | _ => []

theorem chunksLoop_short {prof : Profile} (f : Nat) {p p' : ChunksParser} (hp : p.state.line.length ≤ 512) {r r' : AR}
    {e : IoError} (h : ChunksParser.loop prof f p r = (.io p' e, r')) : p'.state.line.length ≤ 512 := by
  induction f generalizing p r with
  | zero => simp [ChunksParser.loop] at h
  | succ f ih =>
    obtain ⟨body, st⟩ := p
    cases st with
    | finished => simp [ChunksParser.loop] at h
    | size line =>
      simp only [ChunksParser.loop] at h
      generalize hq : sizeState prof line r = q at h
      obtain ⟨o, r1⟩ := q
      have hq1 := congrArg Prod.fst hq
      simp only [sizeState] at hq1
      cases o with
      | io st e' =>
        simp only [Prod.mk.injEq, Out.io.injEq] at h
        obtain ⟨s, hs, rfl⟩ := Out.bind_io hq1 (by intro v; cases parseChunkSize v <;> simp)
        rw [← h.1.1]; exact crlf_short hp (Prod.ext hs rfl)
      | done st =>
        obtain ⟨v, -, hv⟩ := Out.bind_done hq1
        refine ih (p := ⟨body, st⟩) ?_ h
        cases hc : parseChunkSize v with
        | ok n => simp only [hc, Out.done.injEq] at hv; rw [← hv]; simp [ChunkState.line]
        | error e => simp [hc] at hv
      | _ => simp at h
    | data d =>
      simp only [ChunksParser.loop] at h
      generalize hq : dataState d body r = q at h
      obtain ⟨o, r1⟩ := q
      have hq1 := congrArg Prod.fst hq
      simp only [dataState] at hq1
      cases o with
      | io st e' =>
        simp only [Prod.mk.injEq, Out.io.injEq] at h
        obtain ⟨s, hs, rfl⟩ := Out.bind_io hq1 (by simp)
        rw [← h.1.1]; simp [ChunkState.line]
      | done st =>
        obtain ⟨v, -, hv⟩ := Out.bind_done hq1
        refine ih (p := ⟨st.2, st.1⟩) ?_ h
        simp only [Out.done.injEq] at hv
        rw [← hv]; simp [ChunkState.line]
      | _ => simp at h
    | tailingCrlf line l =>
      simp only [ChunksParser.loop] at h
      generalize hq : tailingCrlfState prof line l r = q at h
      obtain ⟨o, r1⟩ := q
      have hq1 := congrArg Prod.fst hq
      simp only [tailingCrlfState] at hq1
      cases o with
      | io st e' =>
        simp only [Prod.mk.injEq, Out.io.injEq] at h
        obtain ⟨s, hs, rfl⟩ := Out.bind_io hq1 (by intro v; by_cases hv : v = [] <;> cases l <;> simp [hv])
        rw [← h.1.1]; exact crlf_short hp (Prod.ext hs rfl)
      | done st =>
        obtain ⟨v, -, hv⟩ := Out.bind_done hq1
        refine ih (p := ⟨body, st⟩) ?_ h
        by_cases hc : v = []
        · cases l <;> simp only [hc, ne_eq, not_true_eq_false, if_false, Bool.false_eq_true, if_true, Out.done.injEq] at hv <;>
            rw [← hv] <;> simp [ChunkState.line]
        · simp [hc] at hv
      | _ => simp at h

/-- The unfinished line of a body parser. -/
def BodyParser.line : BodyParser → Bytes
  | .chunked p => p.state.line
  | _ => []

theorem body_short {prof : Profile} {p p' : BodyParser} (hp : p.line.length ≤ 512) {r r' : AR}
    {e : IoError} (h : BodyParser.parse prof p r = (.io p' e, r')) : p'.line.length ≤ 512 := by
  simp only [BodyParser.parse] at h
  cases hs : prof.sub maxBodySize p.readSoFar with
  | none => simp [hs] at h
  | some lim =>
    rw [hs] at h
    cases p with
    | empty => simp at h
    | withSize p =>
      simp only [Prod.mk.injEq] at h
      obtain ⟨s, -, rfl⟩ := Out.bind_io h.1 (by simp)
      simp [BodyParser.line]
    | untilEof p =>
      simp only [Prod.mk.injEq] at h
      obtain ⟨s, -, rfl⟩ := Out.bind_io h.1 (by simp)
      simp [BodyParser.line]
    | chunked p =>
      simp only [Prod.mk.injEq] at h
      obtain ⟨s, h1, rfl⟩ := Out.bind_io h.1 (by simp)
      exact chunksLoop_short _ hp (Prod.ext h1 rfl)

theorem body_new_line {hs : HeaderMap} {b : Bool} {p : BodyParser} (h : BodyParser.new hs b = .ok p) : p.line = [] := by
  unfold BodyParser.new at h
  split at h
  · cases h
  · split at h
    · cases h
    · cases h; rfl
  · split at h
    · cases h; rfl
    · split at h <;> cases h <;> rfl

section
variable {T : Type}

/-- The unfinished line of a parser. -/
def MsgState.line : MsgState T → Bytes
  | .firstLine line => line
  | .headers _ p => p.inner
  | .body _ _ p => p.line
  | .finished _ _ _ => []

theorem heldLine_eq (st : MsgState T) : heldLine st = st.line := by
  cases st with
  | body t hs p =>
    cases p with
    | chunked p =>
      obtain ⟨b, st⟩ := p
      cases st <;> rfl
    | _ => rfl
  | _ => rfl

theorem message_short {prof : Profile} {pf : Bytes → Except ParsingError T} {b : Bool} (f : Nat) {st st' : MsgState T}
    (hst : st.line.length ≤ 512) {r r' : AR} {e : IoError}
    (h : MessageParser.loop prof pf b f st r = (.io st' e, r')) : st'.line.length ≤ 512 := by
  induction f generalizing st r with
  | zero => simp [MessageParser.loop] at h
  | succ f ih =>
    cases st with
    | finished => simp [MessageParser.loop] at h
    | firstLine line =>
      simp only [MessageParser.loop] at h
      generalize hq : firstLineState prof pf line r = q at h
      obtain ⟨o, r1⟩ := q
      have hq1 := congrArg Prod.fst hq
      simp only [firstLineState] at hq1
      cases o with
      | io st e' =>
        simp only [Prod.mk.injEq, Out.io.injEq] at h
        obtain ⟨s, hs, rfl⟩ := Out.bind_io hq1 (by intro v; cases pf v <;> simp)
        rw [← h.1.1]; exact crlf_short hst (Prod.ext hs rfl)
      | done st =>
        obtain ⟨v, -, hv⟩ := Out.bind_done hq1
        refine ih (st := st) ?_ h
        cases hc : pf v with
        | ok n => simp only [hc, Out.done.injEq] at hv; rw [← hv]; simp [MsgState.line, HeadersParser.new]
        | error e => simp [hc] at hv
      | _ => simp at h
    | headers t p =>
      simp only [MessageParser.loop] at h
      generalize hq : headersState prof t p b r = q at h
      obtain ⟨o, r1⟩ := q
      have hq1 := congrArg Prod.fst hq
      simp only [headersState] at hq1
      cases o with
      | io st e' =>
        simp only [Prod.mk.injEq, Out.io.injEq] at h
        obtain ⟨s, hs, rfl⟩ := Out.bind_io hq1 (by intro v; cases BodyParser.new v b <;> simp)
        rw [← h.1.1]
        simp only [HeadersParser.parse] at hs
        cases hsub : prof.sub maxHeadersSize p.read with
        | none => simp [hsub] at hs
        | some lim =>
          rw [hsub] at hs
          exact headersLoop_short _ hst (Prod.ext hs rfl)
      | done st =>
        obtain ⟨v, -, hv⟩ := Out.bind_done hq1
        refine ih (st := st) ?_ h
        cases hc : BodyParser.new v b with
        | ok n =>
          simp only [hc, Out.done.injEq] at hv; rw [← hv]; simp [MsgState.line, body_new_line hc]
        | error e => simp [hc] at hv
      | _ => simp at h
    | body t hs p =>
      simp only [MessageParser.loop] at h
      generalize hq : bodyState prof t hs p r = q at h
      obtain ⟨o, r1⟩ := q
      have hq1 := congrArg Prod.fst hq
      simp only [bodyState] at hq1
      cases o with
      | io st e' =>
        simp only [Prod.mk.injEq, Out.io.injEq] at h
        obtain ⟨s, hs, rfl⟩ := Out.bind_io hq1 (by simp)
        rw [← h.1.1]
        exact body_short hst (Prod.ext hs rfl)
      | done st =>
        obtain ⟨v, -, hv⟩ := Out.bind_done hq1
        refine ih (st := st) ?_ h
        simp only [Out.done.injEq] at hv
        rw [← hv]; simp [MsgState.line]
      | _ => simp at h

end

theorem request_short {prof : Profile} {p p' : RequestParser} (hp : p.line.length ≤ 512) {r r' : AR} {e : IoError}
    (h : RequestParser.parse prof p r = (.io p' e, r')) : p'.line.length ≤ 512 := by
  simp only [RequestParser.parse, Prod.mk.injEq] at h
  obtain ⟨s, h1, hs⟩ := Out.bind_io h.1 (by simp)
  rw [show p' = s from hs]
  exact message_short 5 hp (Prod.ext h1 rfl)

theorem response_short {prof : Profile} {p p' : ResponseParser} (hp : p.line.length ≤ 512) {r r' : AR} {e : IoError}
    (h : ResponseParser.parse prof p r = (.io p' e, r')) : p'.line.length ≤ 512 := by
  simp only [ResponseParser.parse, Prod.mk.injEq] at h
  obtain ⟨s, h1, hs⟩ := Out.bind_io h.1 (by simp)
  rw [show p' = s from hs]
  exact message_short 5 hp (Prod.ext h1 rfl)

end Verif
