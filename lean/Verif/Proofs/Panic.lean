import Verif.Model.Parse

/-!
Where a parse call can panic.
-/

namespace Verif

open Reader

variable {R : Type} [Reader R]

theorem sub_none {prof : Profile} {a b : Nat} (h : prof.sub a b = none) : prof.overflowChecks = true ∧ a < b := by
  unfold Profile.sub at h
  by_cases hb : b ≤ a
  · simp [hb] at h
  · cases ho : prof.overflowChecks with
    | false => simp [hb, ho] at h
    | true => exact ⟨rfl, by omega⟩

theorem bind_panic {σ σ' τ τ' : Type} {o : Out σ τ} {g : σ → σ'} {f : τ → Out σ' τ'} (h : o.bind g f = .panic) :
    o = .panic ∨ ∃ v, o = .done v ∧ f v = .panic := by
  cases o with
  | done v => exact .inr ⟨v, rfl, h⟩
  | panic => exact .inl rfl
  | _ => simp [Out.bind] at h

theorem line_no_panic (line : Bytes) (r : R) : (LineDeframer.parse line r).1 ≠ .panic := by
  simp only [LineDeframer.parse]
  generalize readLine line r = q
  obtain ⟨o, l, r'⟩ := q
  cases o with
  | ok => simp only []; cases popChar l with
    | none => simp
    | some x => simp only []; split <;> simp
  | _ => simp

theorem crlf_panic {prof : Profile} {line : Bytes} {r r' : R} (h : CrlfLineParser.parse prof line r = (.panic, r')) :
    prof.overflowChecks = true ∧ 512 < line.length := by
  simp only [CrlfLineParser.parse] at h
  cases hs : prof.sub maxLineSize line.length with
  | none => exact sub_none hs
  | some lim =>
    rw [hs] at h
    simp only at h
    have := line_no_panic line (push lim r)
    generalize LineDeframer.parse line (push lim r) = q at h this
    obtain ⟨o, r1⟩ := q
    cases o with
    | done l =>
      simp only [Prod.mk.injEq] at h
      cases hp : parseCrlfLine l <;> simp [hp, Out.ofExcept] at h
    | io s e =>
      simp only [Prod.mk.injEq] at h
      by_cases he : e = .invalidData <;> simp [he] at h
    | panic => simp at this
    | _ => simp at h

theorem headersLoop_panic {prof : Profile} (f : Nat) {p : HeadersParser} {r r' : R}
    (h : HeadersParser.loop prof f p r = (.panic, r')) : prof.overflowChecks = true ∧ 512 < p.inner.length := by
  induction f generalizing p r with
  | zero => simp [HeadersParser.loop] at h
  | succ f ih =>
    simp only [HeadersParser.loop] at h
    generalize hq : CrlfLineParser.parse prof p.inner r = q at h
    obtain ⟨o, r1⟩ := q
    cases o with
    | panic => exact crlf_panic hq
    | done l =>
      simp only at h
      by_cases hl : l = []
      · simp [hl] at h
      · simp only [hl, if_false] at h
        cases hp : parseHeader l with
        | error e => simp [hp] at h
        | ok x =>
          simp only [hp] at h
          exact absurd (ih h).2 (by simp)
    | _ => simp at h

theorem headers_panic {prof : Profile} {p : HeadersParser} {r r' : R}
    (h : HeadersParser.parse prof p r = (.panic, r')) :
    prof.overflowChecks = true ∧ (512 < p.inner.length ∨ 4096 < p.read) := by
  simp only [HeadersParser.parse] at h
  cases hs : prof.sub maxHeadersSize p.read with
  | none => exact ⟨(sub_none hs).1, .inr (sub_none hs).2⟩
  | some lim =>
    rw [hs] at h
    simp only [Prod.mk.injEq] at h
    obtain ⟨h1, h2⟩ := headersLoop_panic (r' := (HeadersParser.loop prof (fuel r) p (push lim r)).2) _
      (Prod.ext h.1 rfl)
    exact ⟨h1, .inl h2⟩

theorem bytes_no_panic (p : BytesDeframer) (r : R) : (BytesDeframer.parse p r).1 ≠ .panic := by
  simp only [BytesDeframer.parse]
  generalize readInto p.size p.filled r = q
  obtain ⟨o, l, r'⟩ := q
  cases o <;> simp

theorem untilEof_no_panic (d : Bytes) (r : R) : (BytesUntilEofDeframer.parse d r).1 ≠ .panic := by
  simp only [BytesUntilEofDeframer.parse]
  generalize readToEnd d r = q
  obtain ⟨o, l, r'⟩ := q
  cases o <;> simp

/-- The unfinished line of the state is too long (never the case in reachable states). -/
def ChunkState.LineOver : ChunkState → Prop
  | .size line => 512 < line.length
  | .tailingCrlf line _ => 512 < line.length
  | _ => False

theorem chunksLoop_panic {prof : Profile} (f : Nat) {p : ChunksParser} {r r' : R}
    (h : ChunksParser.loop prof f p r = (.panic, r')) : prof.overflowChecks = true ∧ p.state.LineOver := by
  induction f generalizing p r with
  | zero => simp [ChunksParser.loop] at h
  | succ f ih =>
    obtain ⟨body, st⟩ := p
    cases st with
    | finished => simp [ChunksParser.loop] at h
    | size line =>
      simp only [ChunksParser.loop] at h
      generalize hq : sizeState prof line r = q at h
      obtain ⟨o, r1⟩ := q
      have hq1 := congrArg Prod.fst hq
      simp only [sizeState] at hq1
      cases o with
      | panic =>
        rcases bind_panic hq1 with h1 | ⟨v, -, h2⟩
        · exact crlf_panic (Prod.ext h1 rfl)
        · cases hp : parseChunkSize v <;> simp [hp] at h2
      | done st =>
        have hst : ¬ st.LineOver := by
          revert hq1
          generalize (CrlfLineParser.parse prof line r).1 = x
          cases x with
          | done v =>
            simp only [Out.bind]
            cases parseChunkSize v with
            | ok n => intro h; cases h; exact id
            | error e => simp
          | _ => simp [Out.bind]
        exact absurd (ih h).2 hst
      | _ => simp at h
    | data p =>
      simp only [ChunksParser.loop] at h
      generalize hq : dataState p body r = q at h
      obtain ⟨o, r1⟩ := q
      have hq1 := congrArg Prod.fst hq
      simp only [dataState] at hq1
      cases o with
      | panic =>
        rcases bind_panic hq1 with h1 | ⟨v, -, h2⟩
        · exact absurd h1 (bytes_no_panic p r)
        · simp at h2
      | done st =>
        have hst : ¬ st.1.LineOver := by
          revert hq1
          generalize (BytesDeframer.parse p r).1 = x
          cases x with
          | done v => simp only [Out.bind]; intro h; cases h; simp [ChunkState.LineOver]
          | _ => simp [Out.bind]
        exact absurd (ih h).2 hst
      | _ => simp at h
    | tailingCrlf line l =>
      simp only [ChunksParser.loop] at h
      generalize hq : tailingCrlfState prof line l r = q at h
      obtain ⟨o, r1⟩ := q
      have hq1 := congrArg Prod.fst hq
      simp only [tailingCrlfState] at hq1
      cases o with
      | panic =>
        rcases bind_panic hq1 with h1 | ⟨v, -, h2⟩
        · exact crlf_panic (Prod.ext h1 rfl)
        · by_cases hv : v = [] <;> cases l <;> simp [hv] at h2
      | done st =>
        have hst : ¬ st.LineOver := by
          revert hq1
          generalize (CrlfLineParser.parse prof line r).1 = x
          cases x with
          | done v =>
            simp only [Out.bind]
            by_cases hv : v = []
            · cases l <;> simp only [hv] <;> intro h <;> cases h <;> simp [ChunkState.LineOver]
            · simp [hv]
          | _ => simp [Out.bind]
        exact absurd (ih h).2 hst
      | _ => simp at h

/-- The unfinished line of the state is too long. -/
def BodyParser.LineOver : BodyParser → Prop
  | .chunked p => p.state.LineOver
  | _ => False

theorem body_panic {prof : Profile} {p : BodyParser} {r r' : R} (h : BodyParser.parse prof p r = (.panic, r')) :
    prof.overflowChecks = true ∧ (p.LineOver ∨ 3 * 1024 * 1024 < p.readSoFar) := by
  simp only [BodyParser.parse] at h
  cases hs : prof.sub maxBodySize p.readSoFar with
  | none => exact ⟨(sub_none hs).1, .inr (sub_none hs).2⟩
  | some lim =>
    rw [hs] at h
    cases p with
    | empty => simp at h
    | withSize p =>
      simp only [Prod.mk.injEq] at h
      rcases bind_panic h.1 with h1 | ⟨v, -, h2⟩
      · exact absurd h1 (bytes_no_panic _ _)
      · cases h2
    | untilEof p =>
      simp only [Prod.mk.injEq] at h
      rcases bind_panic h.1 with h1 | ⟨v, -, h2⟩
      · exact absurd h1 (untilEof_no_panic _ _)
      · cases h2
    | chunked p =>
      simp only [Prod.mk.injEq] at h
      rcases bind_panic h.1 with h1 | ⟨v, -, h2⟩
      · obtain ⟨h3, h4⟩ := chunksLoop_panic (r' := (ChunksParser.loop prof (fuel r) p (push lim r)).2) _
          (Prod.ext h1 rfl)
        exact ⟨h3, .inl h4⟩
      · cases h2

theorem body_new {hs : HeaderMap} {b : Bool} {p : BodyParser} (h : BodyParser.new hs b = .ok p) :
    ¬ p.LineOver ∧ p.readSoFar ≤ 3 * 1024 * 1024 := by
  unfold BodyParser.new at h
  split at h
  · cases h
  · split at h
    · cases h
    · cases h
      exact ⟨id, by simp only [BodyParser.readSoFar, maxBodySize] at *; omega⟩
  · split at h
    · cases h; exact ⟨by simp [BodyParser.LineOver, ChunkState.LineOver], by simp [BodyParser.readSoFar]⟩
    · split at h <;> cases h
      · exact ⟨id, by simp [BodyParser.readSoFar]⟩
      · exact ⟨id, by simp [BodyParser.readSoFar]⟩

section
variable {T : Type}

/-- What makes a parse call panic with overflow checks. -/
def MsgState.Over : MsgState T → Prop
  | .firstLine line => 512 < line.length
  | .headers _ p => 512 < p.inner.length ∨ 4096 < p.read
  | .body _ _ p => p.LineOver ∨ 3 * 1024 * 1024 < p.readSoFar
  | .finished _ _ _ => False

theorem message_panic {prof : Profile} {pf : Bytes → Except ParsingError T} {b : Bool} (f : Nat) {st : MsgState T}
    {r r' : R} (h : MessageParser.loop prof pf b f st r = (.panic, r')) : prof.overflowChecks = true ∧ st.Over := by
  induction f generalizing st r with
  | zero => simp [MessageParser.loop] at h
  | succ f ih =>
    cases st with
    | finished => simp [MessageParser.loop] at h
    | firstLine line =>
      simp only [MessageParser.loop] at h
      generalize hq : firstLineState prof pf line r = q at h
      obtain ⟨o, r1⟩ := q
      have hq1 := congrArg Prod.fst hq
      simp only [firstLineState] at hq1
      cases o with
      | panic =>
        rcases bind_panic hq1 with h1 | ⟨v, -, h2⟩
        · exact crlf_panic (Prod.ext h1 rfl)
        · cases hp : pf v <;> simp [hp] at h2
      | done st =>
        have hst : ¬ st.Over := by
          revert hq1
          generalize (CrlfLineParser.parse prof line r).1 = x
          cases x with
          | done v =>
            simp only [Out.bind]
            cases pf v with
            | ok n => intro h; cases h; simp [MsgState.Over, HeadersParser.new]
            | error e => simp
          | _ => simp [Out.bind]
        exact absurd (ih h).2 hst
      | _ => simp at h
    | headers t p =>
      simp only [MessageParser.loop] at h
      generalize hq : headersState prof t p b r = q at h
      obtain ⟨o, r1⟩ := q
      have hq1 := congrArg Prod.fst hq
      simp only [headersState] at hq1
      cases o with
      | panic =>
        rcases bind_panic hq1 with h1 | ⟨v, -, h2⟩
        · exact headers_panic (Prod.ext h1 rfl)
        · cases hp : BodyParser.new v b <;> simp [hp] at h2
      | done st =>
        have hst : ¬ st.Over := by
          revert hq1
          generalize (HeadersParser.parse prof p r).1 = x
          cases x with
          | done v =>
            simp only [Out.bind]
            cases hbp : BodyParser.new v b with
            | ok n =>
              intro h; cases h
              have := body_new hbp
              simp only [MsgState.Over, not_or]
              exact ⟨this.1, by omega⟩
            | error e => simp
          | _ => simp [Out.bind]
        exact absurd (ih h).2 hst
      | _ => simp at h
    | body t hs p =>
      simp only [MessageParser.loop] at h
      generalize hq : bodyState prof t hs p r = q at h
      obtain ⟨o, r1⟩ := q
      have hq1 := congrArg Prod.fst hq
      simp only [bodyState] at hq1
      cases o with
      | panic =>
        rcases bind_panic hq1 with h1 | ⟨v, -, h2⟩
        · exact body_panic (Prod.ext h1 rfl)
        · simp at h2
      | done st =>
        have hst : ¬ st.Over := by
          revert hq1
          generalize (BodyParser.parse prof p r).1 = x
          cases x with
          | done v => simp only [Out.bind]; intro h; cases h; exact id
          | _ => simp [Out.bind]
        exact absurd (ih h).2 hst
      | _ => simp at h

end

theorem request_panic {prof : Profile} {p : RequestParser} {r r' : R}
    (h : RequestParser.parse prof p r = (.panic, r')) : prof.overflowChecks = true ∧ p.Over := by
  simp only [RequestParser.parse, Prod.mk.injEq] at h
  rcases bind_panic h.1 with h1 | ⟨v, -, h2⟩
  · exact message_panic 5 (r' := (MessageParser.loop prof parseRequestLine false 5 p r).2) (Prod.ext h1 rfl)
  · simp at h2

theorem response_panic {prof : Profile} {p : ResponseParser} {r r' : R}
    (h : ResponseParser.parse prof p r = (.panic, r')) : prof.overflowChecks = true ∧ p.Over := by
  simp only [ResponseParser.parse, Prod.mk.injEq] at h
  rcases bind_panic h.1 with h1 | ⟨v, -, h2⟩
  · exact message_panic 5 (r' := (MessageParser.loop prof parseStatusLine true 5 p r).2) (Prod.ext h1 rfl)
  · simp at h2

end Verif
