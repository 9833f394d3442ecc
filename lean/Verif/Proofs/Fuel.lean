import Verif.Proofs.Line

/-!
The loops of the parsers never run out of fuel, so they satisfy their unfolding equations.
-/

namespace Verif

open Reader

theorem takeN_progress (n : Nat) (ls : List Nat) (as : List Atom) :
    (AR.takeN n ls as).1 ≠ .diverge ∧ (AR.takeN n ls as).2.2.2.length ≤ as.length := by
  obtain ⟨h1, -, -⟩ := takeN_spec n ls as
  revert h1
  generalize AR.takeN n ls as = q
  obtain ⟨o, b, ls', as'⟩ := q
  simp only
  intro h1
  cases h1 <;> simp <;> first | omega | simp [*]

theorem drain_progress (ls : List Nat) (as : List Atom) :
    (AR.drain ls as).1 ≠ .diverge ∧ (AR.drain ls as).2.2.2.length ≤ as.length := by
  obtain ⟨pre, h1, -, -⟩ := drain_spec ls as
  revert h1
  generalize AR.drain ls as = q
  obtain ⟨o, b, ls', as'⟩ := q
  simp only
  intro h1
  cases h1 <;> simp <;> first | omega | simp [*]

theorem bytesDeframer_eq (p : BytesDeframer) (ls : List Nat) (as : List Atom) :
    BytesDeframer.parse p (⟨ls, as⟩ : AR) =
      match AR.takeN (p.size - p.filled.length) ls as with
      | (.ok, b, ls, as) => (.done (p.filled ++ b), ⟨ls, as⟩)
      | (.err e, b, ls, as) => (.io ⟨p.size, p.filled ++ b⟩ e, ⟨ls, as⟩)
      | (.diverge, _, ls, as) => (.diverge, ⟨ls, as⟩) := by
  simp only [BytesDeframer.parse, readInto]
  generalize AR.takeN (p.size - p.filled.length) ls as = q
  obtain ⟨o, b, ls', as'⟩ := q
  cases o <;> rfl

theorem bytesUntilEof_eq (d : Bytes) (ls : List Nat) (as : List Atom) :
    BytesUntilEofDeframer.parse d (⟨ls, as⟩ : AR) =
      match AR.drain ls as with
      | (.ok, b, ls, as) => (.done (d ++ b), ⟨ls, as⟩)
      | (.err e, b, ls, as) => (.io (d ++ b) e, ⟨ls, as⟩)
      | (.diverge, _, ls, as) => (.diverge, ⟨ls, as⟩) := by
  simp only [BytesUntilEofDeframer.parse, readToEnd]
  generalize AR.drain ls as = q
  obtain ⟨o, b, ls', as'⟩ := q
  cases o <;> rfl

theorem bytesDeframer_progress (p : BytesDeframer) (r : AR) :
    (BytesDeframer.parse p r).1 ≠ .diverge ∧ (BytesDeframer.parse p r).1 ≠ .panic ∧
      (∀ e, (BytesDeframer.parse p r).1 ≠ .perr e) ∧
      (BytesDeframer.parse p r).2.atoms.length ≤ r.atoms.length := by
  obtain ⟨ls, as⟩ := r
  rw [bytesDeframer_eq]
  obtain ⟨h1, h2⟩ := takeN_progress (p.size - p.filled.length) ls as
  revert h1 h2
  generalize AR.takeN (p.size - p.filled.length) ls as = q
  obtain ⟨o, b, ls', as'⟩ := q
  cases o <;> simp

theorem bytesUntilEof_progress (d : Bytes) (r : AR) :
    (BytesUntilEofDeframer.parse d r).1 ≠ .diverge ∧ (BytesUntilEofDeframer.parse d r).1 ≠ .panic ∧
      (∀ e, (BytesUntilEofDeframer.parse d r).1 ≠ .perr e) ∧
      (BytesUntilEofDeframer.parse d r).2.atoms.length ≤ r.atoms.length := by
  obtain ⟨ls, as⟩ := r
  rw [bytesUntilEof_eq]
  obtain ⟨h1, h2⟩ := drain_progress ls as
  revert h1 h2
  generalize AR.drain ls as = q
  obtain ⟨o, b, ls', as'⟩ := q
  cases o <;> simp

/-! ### Headers -/

theorem headersLoop_fuel (prof : Profile) (f f' : Nat) (p : HeadersParser) (r : AR)
    (hf : r.atoms.length < f) (hf' : r.atoms.length < f') :
    HeadersParser.loop prof f p r = HeadersParser.loop prof f' p r := by
  induction f generalizing f' p r with
  | zero => omega
  | succ f ih =>
    obtain ⟨f', rfl⟩ : ∃ m, f' = m + 1 := ⟨f' - 1, by omega⟩
    simp only [HeadersParser.loop]
    have hp := crlf_progress prof p.inner r
    revert hp
    generalize CrlfLineParser.parse prof p.inner r = q
    obtain ⟨o, r'⟩ := q
    intro hp
    cases o with
    | done line =>
      simp only at hp ⊢
      have := hp.2.2 line rfl
      split
      · rfl
      · cases parseHeader line with
        | ok hv => exact ih f' _ r' (by omega) (by omega)
        | error e => rfl
    | _ => rfl

/-- The loop of the headers parser, with enough fuel. -/
def hrun (prof : Profile) (p : HeadersParser) (r : AR) : Out HeadersParser HeaderMap × AR :=
  HeadersParser.loop prof (r.atoms.length + 1) p r

theorem hrun_eq (prof : Profile) (p : HeadersParser) (r : AR) :
    hrun prof p r =
      match CrlfLineParser.parse prof p.inner r with
      | (.done line, r) =>
        if line = [] then (.done p.headers, r)
        else match parseHeader line with
          | .ok (h, v) => hrun prof ⟨[], p.headers.addHeader h v, p.read + line.length⟩ r
          | .error e => (.perr e, r)
      | (.io inner e, r) => (.io { p with inner } e, r)
      | (.perr e, r) => (.perr e, r)
      | (.panic, r) => (.panic, r)
      | (.diverge, r) => (.diverge, r) := by
  have hp := crlf_progress prof p.inner r
  rw [hrun, HeadersParser.loop]
  revert hp
  generalize CrlfLineParser.parse prof p.inner r = q
  obtain ⟨o, r'⟩ := q
  intro hp
  cases o with
  | done line =>
    simp only at hp ⊢
    have := hp.2.2 line rfl
    split
    · rfl
    · cases parseHeader line with
      | ok hv => exact headersLoop_fuel prof _ _ _ r' (by omega) (by omega)
      | error e => rfl
  | _ => rfl

theorem headersParse_eq (prof : Profile) (p : HeadersParser) (ls : List Nat) (as : List Atom) :
    HeadersParser.parse prof p (⟨ls, as⟩ : AR) =
      match prof.sub maxHeadersSize p.read with
      | none => (.panic, ⟨ls, as⟩)
      | some lim => ((hrun prof p ⟨lim :: ls, as⟩).1,
          ⟨(hrun prof p ⟨lim :: ls, as⟩).2.lims.tail, (hrun prof p ⟨lim :: ls, as⟩).2.atoms⟩) := by
  simp only [HeadersParser.parse]
  cases prof.sub maxHeadersSize p.read with
  | none => rfl
  | some lim =>
    simp only [hrun, fuel, push, pop]
    rw [headersLoop_fuel prof (3 * as.length + 8) (as.length + 1) p ⟨lim :: ls, as⟩ (by simp; omega)
      (by simp)]

theorem hrun_progress (prof : Profile) (p : HeadersParser) (r : AR) :
    (hrun prof p r).1 ≠ .diverge ∧ (hrun prof p r).2.atoms.length ≤ r.atoms.length := by
  obtain ⟨n, hn⟩ : ∃ n, r.atoms.length ≤ n := ⟨_, Nat.le_refl _⟩
  induction n generalizing p r with
  | zero =>
    rw [hrun_eq]
    have hp := crlf_progress prof p.inner r
    revert hp
    generalize CrlfLineParser.parse prof p.inner r = q
    obtain ⟨o, r'⟩ := q
    intro hp
    cases o with
    | done line =>
      have := hp.2.2 line rfl
      omega
    | diverge => simp at hp
    | _ => simpa using hp.2.1
  | succ n ih =>
    rw [hrun_eq]
    have hp := crlf_progress prof p.inner r
    revert hp
    generalize CrlfLineParser.parse prof p.inner r = q
    obtain ⟨o, r'⟩ := q
    intro hp
    cases o with
    | done line =>
      have hlt := hp.2.2 line rfl
      simp only at hp hlt ⊢
      split
      · exact ⟨by simp, hp.2.1⟩
      · cases parseHeader line with
        | ok hv =>
          have := ih ⟨[], p.headers.addHeader hv.1 hv.2, p.read + line.length⟩ r' (by omega)
          exact ⟨this.1, Nat.le_trans this.2 hp.2.1⟩
        | error e => exact ⟨by simp, hp.2.1⟩
    | diverge => simp at hp
    | _ => simpa using hp.2.1

/-! ### Chunks -/

/-- Iterations still needed by the chunk loop, as a function of the state. -/
def ChunkState.rank : ChunkState → Nat
  | .finished => 0
  | .size _ => 1
  | .data _ => 2
  | .tailingCrlf _ _ => 1

/-- One iteration of the chunk loop. -/
def chunkStep (prof : Profile) (body : Bytes) (st : ChunkState) (r : AR) :
    Out ChunksParser ChunksParser × AR :=
  match st with
  | .finished => (.done ⟨body, .finished⟩, r)
  | .size line =>
    ((sizeState prof line r).1.bind (fun st => ⟨body, st⟩) fun st => .done ⟨body, st⟩,
      (sizeState prof line r).2)
  | .data p =>
    ((dataState p body r).1.bind (fun st => ⟨body, st⟩) fun (st, body) => .done ⟨body, st⟩,
      (dataState p body r).2)
  | .tailingCrlf line l =>
    ((tailingCrlfState prof line l r).1.bind (fun st => ⟨body, st⟩) fun st => .done ⟨body, st⟩,
      (tailingCrlfState prof line l r).2)

theorem chunkStep_progress (prof : Profile) (body : Bytes) (st : ChunkState) (r : AR)
    (hst : st ≠ .finished) :
    (chunkStep prof body st r).1 ≠ .diverge ∧
    (chunkStep prof body st r).2.atoms.length ≤ r.atoms.length ∧
    (∀ p, (chunkStep prof body st r).1 = .done p →
      3 * (chunkStep prof body st r).2.atoms.length + p.state.rank < 3 * r.atoms.length + st.rank) := by
  cases st with
  | finished => exact absurd rfl hst
  | size line =>
    simp only [chunkStep, sizeState]
    have hp := crlf_progress prof line r
    revert hp
    generalize CrlfLineParser.parse prof line r = q
    obtain ⟨o, r'⟩ := q
    intro hp
    cases o with
    | done raw =>
      have := hp.2.2 raw rfl
      simp only [Out.bind] at hp ⊢
      cases parseChunkSize raw with
      | ok n =>
        simp only
        refine ⟨by simp, hp.2.1, fun p hpp => ?_⟩
        cases hpp
        simp [ChunkState.rank]; simp at this; omega
      | error e => simpa using hp.2.1
    | diverge => simp at hp
    | _ => simpa [Out.bind] using hp.2.1
  | data d =>
    simp only [chunkStep, dataState]
    have hp := bytesDeframer_progress d r
    revert hp
    generalize BytesDeframer.parse d r = q
    obtain ⟨o, r'⟩ := q
    intro hp
    cases o with
    | done raw =>
      simp only [Out.bind] at hp ⊢
      refine ⟨by simp, hp.2.2.2, fun p hpp => ?_⟩
      cases hpp
      simp only [ChunkState.rank]; have := hp.2.2.2; omega
    | diverge => simp at hp
    | panic => simp at hp
    | perr e => simp at hp
    | io s e => simpa [Out.bind] using hp.2.2.2
  | tailingCrlf line l =>
    simp only [chunkStep, tailingCrlfState]
    have hp := crlf_progress prof line r
    revert hp
    generalize CrlfLineParser.parse prof line r = q
    obtain ⟨o, r'⟩ := q
    intro hp
    cases o with
    | done raw =>
      have := hp.2.2 raw rfl
      simp only [Out.bind] at hp this ⊢
      by_cases hr : raw = []
      · simp only [hr, ne_eq, not_true, if_false]
        cases l with
        | true =>
          simp only [if_true]
          refine ⟨by simp, hp.2.1, fun p hpp => ?_⟩
          cases hpp
          simp [ChunkState.rank]; omega
        | false =>
          simp only [Bool.false_eq_true, if_false]
          refine ⟨by simp, hp.2.1, fun p hpp => ?_⟩
          cases hpp
          simp [ChunkState.rank]; omega
      · simp only [hr, ne_eq, not_false_eq_true, if_true]
        refine ⟨by simp, hp.2.1, fun p hpp => ?_⟩
        cases hpp
    | diverge => simp at hp
    | _ => simpa [Out.bind] using hp.2.1

theorem chunksLoop_succ (prof : Profile) (f : Nat) (p : ChunksParser) (r : AR) :
    ChunksParser.loop prof (f + 1) p r =
      if p.state = .finished then (.done p.body, r)
      else match chunkStep prof p.body p.state r with
        | (.done p, r) => ChunksParser.loop prof f p r
        | (.io p e, r) => (.io p e, r)
        | (.perr e, r) => (.perr e, r)
        | (.panic, r) => (.panic, r)
        | (.diverge, r) => (.diverge, r) := by
  obtain ⟨body, state⟩ := p
  cases state with
  | finished => simp [ChunksParser.loop]
  | size line =>
    simp only [ChunksParser.loop, chunkStep]
    generalize sizeState prof line r = q
    obtain ⟨o, r'⟩ := q
    cases o <;> simp [Out.bind]
  | data d =>
    simp only [ChunksParser.loop, chunkStep]
    generalize dataState d body r = q
    obtain ⟨o, r'⟩ := q
    cases o <;> simp [Out.bind]
  | tailingCrlf line l =>
    simp only [ChunksParser.loop, chunkStep]
    generalize tailingCrlfState prof line l r = q
    obtain ⟨o, r'⟩ := q
    cases o <;> simp [Out.bind]

theorem chunksLoop_fuel (prof : Profile) (f f' : Nat) (p : ChunksParser) (r : AR)
    (hf : 3 * r.atoms.length + p.state.rank < f) (hf' : 3 * r.atoms.length + p.state.rank < f') :
    ChunksParser.loop prof f p r = ChunksParser.loop prof f' p r := by
  induction f generalizing f' p r with
  | zero => omega
  | succ f ih =>
    obtain ⟨f', rfl⟩ : ∃ m, f' = m + 1 := ⟨f' - 1, by omega⟩
    rw [chunksLoop_succ, chunksLoop_succ]
    by_cases hst : p.state = .finished
    · simp [hst]
    · simp only [hst, if_false]
      have hp := chunkStep_progress prof p.body p.state r hst
      revert hp
      generalize chunkStep prof p.body p.state r = q
      obtain ⟨o, r'⟩ := q
      intro hp
      cases o with
      | done p' =>
        have := hp.2.2 p' rfl
        simp only at this ⊢
        exact ih f' p' r' (by omega) (by omega)
      | _ => rfl

/-- The chunk loop, with enough fuel. -/
def crun (prof : Profile) (p : ChunksParser) (r : AR) : Out ChunksParser Bytes × AR :=
  ChunksParser.loop prof (3 * r.atoms.length + 8) p r

theorem ChunkState.rank_le (st : ChunkState) : st.rank ≤ 2 := by cases st <;> simp [ChunkState.rank]

theorem crun_eq (prof : Profile) (p : ChunksParser) (r : AR) :
    crun prof p r =
      if p.state = .finished then (.done p.body, r)
      else match chunkStep prof p.body p.state r with
        | (.done p, r) => crun prof p r
        | (.io p e, r) => (.io p e, r)
        | (.perr e, r) => (.perr e, r)
        | (.panic, r) => (.panic, r)
        | (.diverge, r) => (.diverge, r) := by
  rw [crun, chunksLoop_succ]
  by_cases hst : p.state = .finished
  · simp [hst]
  · simp only [hst, if_false]
    have hp := chunkStep_progress prof p.body p.state r hst
    revert hp
    generalize chunkStep prof p.body p.state r = q
    obtain ⟨o, r'⟩ := q
    intro hp
    cases o with
    | done p' =>
      have := hp.2.2 p' rfl
      simp only at this ⊢
      have h1 := p.state.rank_le
      have h2 := p'.state.rank_le
      exact chunksLoop_fuel prof _ _ p' r' (by omega) (by omega)
    | _ => rfl

theorem crun_progress (prof : Profile) (p : ChunksParser) (r : AR) :
    (crun prof p r).1 ≠ .diverge ∧ (crun prof p r).2.atoms.length ≤ r.atoms.length := by
  obtain ⟨n, hn⟩ : ∃ n, 3 * r.atoms.length + p.state.rank ≤ n := ⟨_, Nat.le_refl _⟩
  induction n using Nat.strongRecOn generalizing p r with
  | _ n ih =>
    rw [crun_eq]
    by_cases hst : p.state = .finished
    · simp [hst]
    · simp only [hst, if_false]
      have hp := chunkStep_progress prof p.body p.state r hst
      revert hp
      generalize chunkStep prof p.body p.state r = q
      obtain ⟨o, r'⟩ := q
      intro hp
      cases o with
      | done p' =>
        have := hp.2.2 p' rfl
        simp only at this hp ⊢
        have h := ih (3 * r'.atoms.length + p'.state.rank) (by omega) p' r' (Nat.le_refl _)
        exact ⟨h.1, Nat.le_trans h.2 hp.2.1⟩
      | diverge => simp at hp
      | _ => simpa using hp.2.1

theorem bodyParse_eq (prof : Profile) (p : BodyParser) (ls : List Nat) (as : List Atom) :
    BodyParser.parse prof p (⟨ls, as⟩ : AR) =
      match prof.sub maxBodySize p.readSoFar with
      | none => (.panic, ⟨ls, as⟩)
      | some lim =>
        match p with
        | .withSize p =>
          ((BytesDeframer.parse p (⟨lim :: ls, as⟩ : AR)).1.bind .withSize .done,
            ⟨(BytesDeframer.parse p (⟨lim :: ls, as⟩ : AR)).2.lims.tail,
              (BytesDeframer.parse p (⟨lim :: ls, as⟩ : AR)).2.atoms⟩)
        | .untilEof d =>
          ((BytesUntilEofDeframer.parse d (⟨lim :: ls, as⟩ : AR)).1.bind .untilEof .done,
            ⟨(BytesUntilEofDeframer.parse d (⟨lim :: ls, as⟩ : AR)).2.lims.tail,
              (BytesUntilEofDeframer.parse d (⟨lim :: ls, as⟩ : AR)).2.atoms⟩)
        | .chunked p =>
          ((crun prof p ⟨lim :: ls, as⟩).1.bind .chunked .done,
            ⟨(crun prof p ⟨lim :: ls, as⟩).2.lims.tail, (crun prof p ⟨lim :: ls, as⟩).2.atoms⟩)
        | .empty => (.done [], ⟨ls, as⟩) := by
  simp only [BodyParser.parse]
  cases prof.sub maxBodySize p.readSoFar with
  | none => rfl
  | some lim => cases p <;> rfl

theorem bind_ne_diverge {σ σ' τ τ' : Type} {o : Out σ τ} {g : σ → σ'} {f : τ → Out σ' τ'}
    (h : o ≠ .diverge) (hf : ∀ v, f v ≠ .diverge) : o.bind g f ≠ .diverge := by
  cases o <;> simp_all [Out.bind]

theorem bodyParse_progress (prof : Profile) (p : BodyParser) (r : AR) :
    (BodyParser.parse prof p r).1 ≠ .diverge ∧
    (BodyParser.parse prof p r).2.atoms.length ≤ r.atoms.length := by
  obtain ⟨ls, as⟩ := r
  rw [bodyParse_eq]
  cases prof.sub maxBodySize p.readSoFar with
  | none => simp
  | some lim =>
    cases p with
    | withSize d =>
      have := bytesDeframer_progress d ⟨lim :: ls, as⟩
      exact ⟨bind_ne_diverge this.1 (by simp), this.2.2.2⟩
    | untilEof d =>
      have := bytesUntilEof_progress d ⟨lim :: ls, as⟩
      exact ⟨bind_ne_diverge this.1 (by simp), this.2.2.2⟩
    | chunked p =>
      have := crun_progress prof p ⟨lim :: ls, as⟩
      exact ⟨bind_ne_diverge this.1 (by simp), this.2⟩
    | empty => simp

theorem headersParse_progress (prof : Profile) (p : HeadersParser) (r : AR) :
    (HeadersParser.parse prof p r).1 ≠ .diverge ∧
    (HeadersParser.parse prof p r).2.atoms.length ≤ r.atoms.length := by
  obtain ⟨ls, as⟩ := r
  rw [headersParse_eq]
  cases prof.sub maxHeadersSize p.read with
  | none => simp
  | some lim => exact hrun_progress prof p ⟨lim :: ls, as⟩

section
variable {T : Type}

/-- Iterations still needed by the message loop. -/
def MsgState.rank : MsgState T → Nat
  | .firstLine _ => 4
  | .headers _ _ => 3
  | .body _ _ _ => 2
  | .finished _ _ _ => 1

/-- One iteration of the message loop. -/
def msgStep (prof : Profile) (pf : Bytes → Except ParsingError T) (b : Bool) (st : MsgState T) (r : AR) :
    Out (MsgState T) (MsgState T) × AR :=
  match st with
  | .finished t hs bd => (.done (.finished t hs bd), r)
  | .firstLine line => firstLineState prof pf line r
  | .headers t p => headersState prof t p b r
  | .body t hs p => bodyState prof t hs p r

/-- The message is completely parsed. -/
def MsgState.isFinished : MsgState T → Bool
  | .finished _ _ _ => true
  | _ => false

theorem messageLoop_finished (prof : Profile) (pf : Bytes → Except ParsingError T) (b : Bool) (f : Nat)
    (t : T) (hs : HeaderMap) (bd : Bytes) (r : AR) :
    MessageParser.loop prof pf b (f + 1) (.finished t hs bd) r = (.done (t, hs, bd), r) := by
  simp [MessageParser.loop]

theorem messageLoop_step (prof : Profile) (pf : Bytes → Except ParsingError T) (b : Bool) (f : Nat)
    (st : MsgState T) (r : AR) (h : st.isFinished = false) :
    MessageParser.loop prof pf b (f + 1) st r =
      match msgStep prof pf b st r with
      | (.done st, r) => MessageParser.loop prof pf b f st r
      | (.io st e, r) => (.io st e, r)
      | (.perr e, r) => (.perr e, r)
      | (.panic, r) => (.panic, r)
      | (.diverge, r) => (.diverge, r) := by
  cases st with
  | finished => simp [MsgState.isFinished] at h
  | firstLine l =>
    simp only [MessageParser.loop, msgStep]
    generalize firstLineState prof pf l r = q
    obtain ⟨o, r'⟩ := q
    cases o <;> rfl
  | headers t p =>
    simp only [MessageParser.loop, msgStep]
    generalize headersState prof t p b r = q
    obtain ⟨o, r'⟩ := q
    cases o <;> rfl
  | body t hs p =>
    simp only [MessageParser.loop, msgStep]
    generalize bodyState prof t hs p r = q
    obtain ⟨o, r'⟩ := q
    cases o <;> rfl

theorem msgStep_progress (prof : Profile) (pf : Bytes → Except ParsingError T) (b : Bool)
    (st : MsgState T) (r : AR) :
    (msgStep prof pf b st r).1 ≠ .diverge ∧
    (msgStep prof pf b st r).2.atoms.length ≤ r.atoms.length ∧
    (st.isFinished = false →
      ∀ st', (msgStep prof pf b st r).1 = .done st' → st'.rank + 1 = st.rank) := by
  cases st with
  | finished t hs bd => exact ⟨by simp [msgStep], by simp [msgStep], by simp [MsgState.isFinished]⟩
  | firstLine line =>
    simp only [msgStep, firstLineState]
    have hp := crlf_progress prof line r
    revert hp
    generalize CrlfLineParser.parse prof line r = q
    obtain ⟨o, r'⟩ := q
    intro hp
    refine ⟨bind_ne_diverge hp.1 fun v => ?_, hp.2.1, fun _ => ?_⟩
    · cases pf v <;> simp
    · intro st' h
      cases o with
      | done l =>
        simp only [Out.bind] at h
        cases hl : pf l <;> simp [hl] at h
        subst h; rfl
      | _ => simp [Out.bind] at h
  | headers t p =>
    simp only [msgStep, headersState]
    have hp := headersParse_progress prof p r
    revert hp
    generalize HeadersParser.parse prof p r = q
    obtain ⟨o, r'⟩ := q
    intro hp
    refine ⟨bind_ne_diverge hp.1 fun v => ?_, hp.2, fun _ => ?_⟩
    · cases BodyParser.new v b <;> simp
    · intro st' h
      cases o with
      | done l =>
        simp only [Out.bind] at h
        cases hl : BodyParser.new l b <;> simp [hl] at h
        subst h; rfl
      | _ => simp [Out.bind] at h
  | body t hs p =>
    simp only [msgStep, bodyState]
    have hp := bodyParse_progress prof p r
    revert hp
    generalize BodyParser.parse prof p r = q
    obtain ⟨o, r'⟩ := q
    intro hp
    refine ⟨bind_ne_diverge hp.1 fun v => by simp, hp.2, fun _ => ?_⟩
    intro st' h
    cases o with
    | done l => simp only [Out.bind, Out.done.injEq] at h; subst h; rfl
    | _ => simp [Out.bind] at h

theorem messageLoop_progress (prof : Profile) (pf : Bytes → Except ParsingError T) (b : Bool) (f : Nat)
    (st : MsgState T) (r : AR) (hf : st.rank ≤ f) :
    (MessageParser.loop prof pf b f st r).1 ≠ .diverge ∧
    (MessageParser.loop prof pf b f st r).2.atoms.length ≤ r.atoms.length := by
  induction f generalizing st r with
  | zero => cases st <;> simp [MsgState.rank] at hf
  | succ f ih =>
    by_cases hfin : st.isFinished = false
    · rw [messageLoop_step _ _ _ _ _ _ hfin]
      have hp := msgStep_progress prof pf b st r
      revert hp
      generalize msgStep prof pf b st r = q
      obtain ⟨o, r'⟩ := q
      intro hp
      cases o with
      | done st' =>
        have h1 := hp.2.2 hfin st' rfl
        have h2 := ih st' r' (by omega)
        exact ⟨h2.1, Nat.le_trans h2.2 hp.2.1⟩
      | diverge => simp at hp
      | _ => simpa using hp.2.1
    · cases st with
      | finished t hs bd => rw [messageLoop_finished]; simp
      | _ => simp [MsgState.isFinished] at hfin

theorem MsgState.rank_le (st : MsgState T) : st.rank ≤ 4 := by cases st <;> simp [MsgState.rank]

end

theorem requestParse_progress (prof : Profile) (p : RequestParser) (r : AR) :
    (RequestParser.parse prof p r).1 ≠ .diverge ∧
    (RequestParser.parse prof p r).2.atoms.length ≤ r.atoms.length := by
  have := messageLoop_progress prof parseRequestLine false 5 p r (by have := p.rank_le; omega)
  exact ⟨bind_ne_diverge this.1 (by simp), this.2⟩

theorem responseParse_progress (prof : Profile) (p : ResponseParser) (r : AR) :
    (ResponseParser.parse prof p r).1 ≠ .diverge ∧
    (ResponseParser.parse prof p r).2.atoms.length ≤ r.atoms.length := by
  have := messageLoop_progress prof parseStatusLine true 5 p r (by have := p.rank_le; omega)
  exact ⟨bind_ne_diverge this.1 (by simp), this.2⟩

end Verif
