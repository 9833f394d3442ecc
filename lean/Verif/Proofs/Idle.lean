import Verif.Proofs.Serving

/-!
Parse calls when there is nothing to read.
-/

namespace Verif

open Reader

section
variable {σ σ' τ τ' T : Type}

/-- A call in state `p` waits and keeps the state if there is nothing to read, or it fails whatever there is to read:
a limit is reached, or it panics. -/
def Idle (ls : List Nat) (p : σ) (g : List Atom → Out σ τ × AR) : Prop :=
  g [] = (.io p .wouldBlock, ⟨ls, []⟩) ∨ (∀ as, g as = (.io p .limitReached, ⟨ls, as⟩)) ∨ ∀ as, g as = (.panic, ⟨ls, as⟩)

theorem Idle.bind {ls : List Nat} {p : σ} {g : List Atom → Out σ τ × AR} (h : Idle ls p g) (f : σ → σ') (k : τ → Out σ' τ') :
    Idle ls (f p) fun as => ((g as).1.bind f k, (g as).2) := by
  rcases h with h | h | h
  · left; simp [h, Out.bind]
  · right; left; simp [h, Out.bind]
  · right; right; simp [h, Out.bind]

theorem Idle.pop {l : Nat} {ls : List Nat} {p : σ} {g : List Atom → Out σ τ × AR} (h : Idle (l :: ls) p g) :
    Idle ls p fun as => ((g as).1, ⟨(g as).2.lims.tail, (g as).2.atoms⟩) := by
  rcases h with h | h | h
  · left; simp [h]
  · right; left; simp [h]
  · right; right; simp [h]

theorem Idle.congr {ls : List Nat} {p : σ} {g g' : List Atom → Out σ τ × AR} (h : Idle ls p g) (e : ∀ as, g as = g' as) :
    Idle ls p g' := by
  have : g = g' := funext e
  rwa [← this]

theorem Idle.panic {ls : List Nat} {p : σ} : Idle ls p (fun as => ((.panic : Out σ τ), ⟨ls, as⟩)) := .inr (.inr fun _ => rfl)

theorem crlf_idle (prof : Profile) (line : Bytes) (ls : List Nat) :
    Idle ls line fun as => CrlfLineParser.parse prof line (⟨ls, as⟩ : AR) := by
  cases hs : prof.sub maxLineSize line.length with
  | none => exact Idle.panic.congr fun as => by simp [CrlfLineParser.parse, hs]
  | some lim =>
    by_cases h0 : 0 ∈ lim :: ls
    · right; left
      intro as
      show CrlfLineParser.parse prof line _ = _
      rw [crlf_eq prof line lim hs]
      have e : AR.scan LF (lim :: ls) as = (.err .limitReached, [], lim :: ls, as) := by cases as <;> simp [AR.scan, h0]
      rw [e]
      have hv : utf8Valid [] = true := rfl
      simp [crlfOut, hv]
    · left
      show CrlfLineParser.parse prof line _ = _
      rw [crlf_eq prof line lim hs]
      have e : AR.scan LF (lim :: ls) [] = (.err .wouldBlock, [], lim :: ls, []) := by simp [AR.scan, h0]
      rw [e]
      have hv : utf8Valid [] = true := rfl
      simp [crlfOut, hv]

theorem bytes_idle (p : BytesDeframer) (hp : p.filled.length < p.size) (ls : List Nat) :
    Idle ls p fun as => BytesDeframer.parse p (⟨ls, as⟩ : AR) := by
  obtain ⟨size, filled⟩ := p
  simp only at hp
  obtain ⟨k, hk⟩ : ∃ k, size - filled.length = k + 1 := ⟨size - filled.length - 1, by omega⟩
  by_cases h0 : 0 ∈ ls
  · right; left
    intro as
    simp [BytesDeframer.parse, readInto, hk, AR.takeN, h0]
  · left
    simp [BytesDeframer.parse, readInto, hk, AR.takeN, h0]

theorem untilEof_idle (d : Bytes) (ls : List Nat) : Idle ls d fun as => BytesUntilEofDeframer.parse d (⟨ls, as⟩ : AR) := by
  by_cases h0 : 0 ∈ ls
  · right; left
    intro as
    cases as <;> simp [BytesUntilEofDeframer.parse, readToEnd, AR.drain, h0]
  · left
    simp [BytesUntilEofDeframer.parse, readToEnd, AR.drain, h0]

theorem hrun_idle (prof : Profile) (p : HeadersParser) (ls : List Nat) : Idle ls p fun as => hrun prof p ⟨ls, as⟩ := by
  rcases crlf_idle prof p.inner ls with h | h | h
  · left; simp only [hrun_eq, h]
  · right; left; intro as; simp only [hrun_eq, h]
  · right; right; intro as; simp only [hrun_eq, h]

/-- The state needs more input. -/
def ChunkState.Hungry : ChunkState → Prop
  | .data p => p.filled.length < p.size
  | .finished => False
  | _ => True

/-- The state needs more input. -/
def BodyParser.Hungry : BodyParser → Prop
  | .withSize p => p.filled.length < p.size
  | .chunked p => p.state.Hungry
  | .untilEof _ => True
  | .empty => False

/-- The state needs more input. -/
def MsgState.Hungry : MsgState T → Prop
  | .body _ _ p => p.Hungry
  | .finished _ _ _ => False
  | _ => True

theorem chunkStep_idle (prof : Profile) (body : Bytes) {st : ChunkState} (hst : st.Hungry) (ls : List Nat) :
    Idle ls ⟨body, st⟩ fun as => chunkStep prof body st ⟨ls, as⟩ := by
  cases st with
  | finished => exact hst.elim
  | size line =>
    exact ((crlf_idle prof line ls).bind ChunkState.size (fun raw =>
      match parseChunkSize raw with
      | .ok n => Out.done (ChunkState.data ⟨n, []⟩)
      | .error e => .perr e)).bind (fun st => (⟨body, st⟩ : ChunksParser)) (fun st => Out.done (⟨body, st⟩ : ChunksParser))
  | data p =>
    exact ((bytes_idle p hst ls).bind ChunkState.data
      (fun d => Out.done (ChunkState.tailingCrlf [] d.isEmpty, body ++ d))).bind
        (fun st => (⟨body, st⟩ : ChunksParser)) (fun x => Out.done (⟨x.2, x.1⟩ : ChunksParser))
  | tailingCrlf line l =>
    exact ((crlf_idle prof line ls).bind (ChunkState.tailingCrlf · l) (fun line =>
      if line ≠ [] then .perr .badSyntax
      else if l then .done .finished
      else .done (.size []))).bind (fun st => (⟨body, st⟩ : ChunksParser)) (fun st => Out.done (⟨body, st⟩ : ChunksParser))

theorem crun_idle (prof : Profile) {p : ChunksParser} (hp : p.state.Hungry) (ls : List Nat) :
    Idle ls p fun as => crun prof p ⟨ls, as⟩ := by
  have hf : p.state ≠ .finished := by intro h; rw [h] at hp; exact hp
  rcases chunkStep_idle prof p.body hp ls with h | h | h
  · left; simp only [crun_eq, hf, if_false, h]
  · right; left; intro as; simp only [crun_eq, hf, if_false, h]
  · right; right; intro as; simp only [crun_eq, hf, if_false, h]

theorem bodyParse_idle (prof : Profile) {p : BodyParser} (hp : p.Hungry) (ls : List Nat) :
    Idle ls p fun as => BodyParser.parse prof p (⟨ls, as⟩ : AR) := by
  cases hs : prof.sub maxBodySize p.readSoFar with
  | none => exact Idle.panic.congr fun as => by rw [bodyParse_eq, hs]
  | some lim =>
    cases p with
    | withSize p =>
      exact ((bytes_idle p hp (lim :: ls)).bind BodyParser.withSize Out.done).pop.congr fun as => by rw [bodyParse_eq, hs]
    | untilEof d =>
      exact ((untilEof_idle d (lim :: ls)).bind BodyParser.untilEof Out.done).pop.congr fun as => by rw [bodyParse_eq, hs]
    | chunked p =>
      exact ((crun_idle prof hp (lim :: ls)).bind BodyParser.chunked Out.done).pop.congr fun as => by rw [bodyParse_eq, hs]
    | empty => exact hp.elim

theorem msgStep_idle (prof : Profile) (pf : Bytes → Except ParsingError T) (b : Bool) {st : MsgState T} (hst : st.Hungry)
    (ls : List Nat) : Idle ls st fun as => msgStep prof pf b st ⟨ls, as⟩ := by
  cases st with
  | finished t hs bd => exact hst.elim
  | firstLine line =>
    exact (crlf_idle prof line ls).bind MsgState.firstLine (fun l =>
      match pf l with
      | .ok t => Out.done (MsgState.headers t .new)
      | .error e => .perr e)
  | headers t p =>
    have h1 : Idle ls p fun as => HeadersParser.parse prof p (⟨ls, as⟩ : AR) := by
      cases hs : prof.sub maxHeadersSize p.read with
      | none => exact Idle.panic.congr fun as => by rw [headersParse_eq, hs]
      | some lim => exact (hrun_idle prof p (lim :: ls)).pop.congr fun as => by rw [headersParse_eq, hs]
    exact h1.bind (MsgState.headers t) (fun hs =>
      match BodyParser.new hs b with
      | .ok bp => Out.done (MsgState.body t hs bp)
      | .error e => .perr e)
  | body t hs p =>
    exact (bodyParse_idle prof hst ls).bind (MsgState.body t hs) (fun b => Out.done (MsgState.finished t hs b))

/-- A call in a state that needs more input. -/
theorem mrun_idle (prof : Profile) (pf : Bytes → Except ParsingError T) (b : Bool) {st : MsgState T} (hst : st.Hungry)
    (ls : List Nat) : Idle ls st fun as => mrun prof pf b st ⟨ls, as⟩ := by
  have hf : st.isFinished = false := by cases st with
    | finished => exact hst.elim
    | _ => rfl
  rcases msgStep_idle prof pf b hst ls with h | h | h
  · left; simp only [mrun_cont _ _ _ _ _ hf, h, Out.cont, id]
  · right; left; intro as; simp only [mrun_cont _ _ _ _ _ hf, h, Out.cont, id]
  · right; right; intro as; simp only [mrun_cont _ _ _ _ _ hf, h, Out.cont]

/-! ### What is kept needs more input -/

theorem takeN_short {n : Nat} {ls ls' : List Nat} {as as' : List Atom} {e : IoError} {d : Bytes}
    (h : AR.takeN n ls as = (.err e, d, ls', as')) : d.length < n := by
  induction n generalizing ls as d with
  | zero => simp [AR.takeN] at h
  | succ n ih =>
    by_cases h0 : 0 ∈ ls
    · simp only [AR.takeN, h0, if_true, Prod.mk.injEq] at h; rw [← h.2.1]; simp
    · cases as with
      | nil => simp only [AR.takeN, h0, if_false, Prod.mk.injEq] at h; rw [← h.2.1]; simp
      | cons a as =>
        cases a with
        | byte b =>
          simp only [AR.takeN, h0, if_false] at h
          cases hq : AR.takeN n (AR.dec ls) as with
          | mk o q =>
          obtain ⟨bs, l2, a2⟩ := q
          simp only [hq, Prod.mk.injEq] at h
          obtain ⟨rfl, rfl, rfl, rfl⟩ := h
          have := ih hq
          simp only [List.length_cons]; omega
        | eof => simp only [AR.takeN, h0, if_false, Prod.mk.injEq] at h; rw [← h.2.1]; simp
        | err e => simp only [AR.takeN, h0, if_false, Prod.mk.injEq] at h; rw [← h.2.1]; simp

theorem bytes_hungry {p p' : BytesDeframer} {r r' : AR} {e : IoError} (h : BytesDeframer.parse p r = (.io p' e, r')) :
    p'.filled.length < p'.size := by
  unfold BytesDeframer.parse at h
  simp only [readInto] at h
  cases hq : AR.takeN (p.size - p.filled.length) r.lims r.atoms with
  | mk o q =>
  obtain ⟨bs, l2, a2⟩ := q
  simp only [hq] at h
  cases o with
  | err e' =>
    simp only [Prod.mk.injEq, Out.io.injEq] at h
    have := takeN_short hq
    rw [← h.1.1]
    simp only [List.length_append]
    omega
  | _ => simp at h

theorem chunkStep_hungry {prof : Profile} {body : Bytes} {st : ChunkState} {r r' : AR} {p : ChunksParser} {e : IoError}
    (h : chunkStep prof body st r = (.io p e, r')) : p.state.Hungry := by
  cases st with
  | finished => simp [chunkStep] at h
  | size line =>
    simp only [chunkStep, sizeState, Prod.mk.injEq] at h
    obtain ⟨s, h1, rfl⟩ := Out.bind_io h.1 (by simp)
    obtain ⟨s', -, rfl⟩ := Out.bind_io h1 (by intro v; cases parseChunkSize v <;> simp)
    trivial
  | data p =>
    simp only [chunkStep, dataState, Prod.mk.injEq] at h
    obtain ⟨s, h1, rfl⟩ := Out.bind_io h.1 (by simp)
    obtain ⟨s', h2, rfl⟩ := Out.bind_io h1 (by simp)
    exact bytes_hungry (Prod.ext h2 rfl)
  | tailingCrlf line l =>
    simp only [chunkStep, tailingCrlfState, Prod.mk.injEq] at h
    obtain ⟨s, h1, rfl⟩ := Out.bind_io h.1 (by simp)
    obtain ⟨s', -, rfl⟩ := Out.bind_io h1 (by
      intro v
      split
      · simp
      · split <;> simp)
    trivial

theorem crun_hungry {prof : Profile} {p p' : ChunksParser} {r r' : AR} {e : IoError}
    (h : crun prof p r = (.io p' e, r')) : p'.state.Hungry := by
  unfold crun at h
  generalize 3 * r.atoms.length + 8 = f at h
  induction f generalizing p r with
  | zero => simp [ChunksParser.loop] at h
  | succ f ih =>
    rw [chunksLoop_succ] at h
    by_cases hf : p.state = .finished
    · simp [hf] at h
    · simp only [hf, if_false] at h
      cases hq : chunkStep prof p.body p.state r with
      | mk o q =>
      rw [hq] at h
      cases o with
      | done p1 => exact ih h
      | io s e' =>
        simp only [Prod.mk.injEq, Out.io.injEq] at h
        obtain ⟨⟨rfl, rfl⟩, rfl⟩ := h
        exact chunkStep_hungry hq
      | _ => simp at h

theorem bodyParse_hungry {prof : Profile} {p p' : BodyParser} {r r' : AR} {e : IoError}
    (h : BodyParser.parse prof p r = (.io p' e, r')) : p'.Hungry := by
  obtain ⟨ls, as⟩ := r
  rw [bodyParse_eq] at h
  cases hs : prof.sub maxBodySize p.readSoFar with
  | none => simp [hs] at h
  | some lim =>
    rw [hs] at h
    cases p with
    | withSize p =>
      simp only [Prod.mk.injEq] at h
      obtain ⟨s, h1, rfl⟩ := Out.bind_io h.1 (by simp)
      exact bytes_hungry (Prod.ext h1 rfl)
    | untilEof d =>
      simp only [Prod.mk.injEq] at h
      obtain ⟨s, h1, rfl⟩ := Out.bind_io h.1 (by simp)
      trivial
    | chunked p =>
      simp only [Prod.mk.injEq] at h
      obtain ⟨s, h1, rfl⟩ := Out.bind_io h.1 (by simp)
      exact crun_hungry (Prod.ext h1 rfl)
    | empty => simp at h

/-- What a call keeps needs more input. -/
theorem mrun_hungry {prof : Profile} {pf : Bytes → Except ParsingError T} {b : Bool} {st st' : MsgState T} {r r' : AR}
    {e : IoError} (h : mrun prof pf b st r = (.io st' e, r')) : st'.Hungry := by
  unfold mrun at h
  generalize 5 = f at h
  induction f generalizing st r with
  | zero => simp [MessageParser.loop] at h
  | succ f ih =>
    cases hf : st.isFinished with
    | true =>
      cases st with
      | finished t hs bd => simp [MessageParser.loop] at h
      | _ => cases hf
    | false =>
      rw [messageLoop_cont _ _ _ _ _ _ hf] at h
      cases hq : msgStep prof pf b st r with
      | mk o r1 =>
      rw [hq] at h
      cases o with
      | done st1 => exact ih h
      | io s e' =>
        simp only [Out.cont, id, Prod.mk.injEq, Out.io.injEq] at h
        obtain ⟨⟨rfl, rfl⟩, rfl⟩ := h
        cases st with
        | finished t hs bd => cases hf
        | firstLine line =>
          simp only [msgStep, firstLineState, Prod.mk.injEq] at hq
          obtain ⟨s', -, rfl⟩ := Out.bind_io hq.1 (by intro v; cases pf v <;> simp)
          trivial
        | headers t p =>
          simp only [msgStep, headersState, Prod.mk.injEq] at hq
          obtain ⟨s', -, rfl⟩ := Out.bind_io hq.1 (by intro v; cases BodyParser.new v b <;> simp)
          trivial
        | body t hs p =>
          simp only [msgStep, bodyState, Prod.mk.injEq] at hq
          obtain ⟨s', h1, rfl⟩ := Out.bind_io hq.1 (by simp)
          exact bodyParse_hungry (Prod.ext h1 rfl)
      | _ => simp [Out.cont] at h

end

theorem parse_hungry {prof : Profile} {p p' : RequestParser} {r r' : Rd} {e : IoError}
    (h : RequestParser.parse prof p r = (.io p' e, r')) : p'.Hungry := by
  have h1 := requestParse_abs prof p r
  rw [h] at h1
  simp only [RequestParser.parse, absOut, Prod.mk.injEq] at h1
  obtain ⟨s, h2, rfl⟩ := Out.bind_io h1.1 (by simp)
  exact mrun_hungry (pf := parseRequestLine) (b := false) (r := r.abs) (Prod.ext h2 rfl)

/-- A parse call when there is nothing to read keeps the parser, or every call fails, whatever there is to read. -/
theorem parse_idle (prof : Profile) {p : RequestParser} (hp : p.Hungry) :
    (∀ (r : Rd) (X : List Atom), r.Ahead X → (X = [] ∨ ∃ Y, X = WB :: Y) →
        ∃ r', RequestParser.parse prof p r = (.io p .wouldBlock, r') ∧ r'.Ahead X.tail) ∨
      (∀ (r : Rd) (X : List Atom), r.Ahead X → ∃ r', RequestParser.parse prof p r = (.io p .limitReached, r') ∧ r'.Ahead X) ∨
      (∀ (r : Rd) (X : List Atom), r.Ahead X → ∃ r', RequestParser.parse prof p r = (.panic, r') ∧ r'.Ahead X) := by
  rcases mrun_idle prof parseRequestLine false hp [] with h | h | h
  · left
    rintro r X hr (rfl | ⟨Y, rfl⟩)
    · refine (request_isWrap prof).of hr ?_
      simp only [wrap, h, Out.bind, id, List.tail_nil]
    · obtain ⟨-, h5⟩ := mrun_block Y (by simp) h
      refine (request_isWrap prof).of hr ?_
      rw [List.nil_append] at h5
      simp only [wrap, h5, Out.bind, id, List.tail_cons]
  · right; left
    intro r X hr
    refine (request_isWrap prof).of hr ?_
    simp only [wrap, h, Out.bind, id]
  · right; right
    intro r X hr
    refine (request_isWrap prof).of hr ?_
    simp only [wrap, h, Out.bind]

end Verif
