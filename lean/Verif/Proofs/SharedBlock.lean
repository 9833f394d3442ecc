import Verif.Proofs.SharedStack

/-!
A parser that says it has to wait says so because the stream did, and used the stream for nothing after that.
-/

namespace Verif

open Reader

section

variable {R : Type} [Reader R] {K E : R → Prop}

/-- The operations of a reader preserve `K`, and lead to `E` if they end with `WouldBlock`. -/
structure Stops (K E : R → Prop) : Prop where
  push : ∀ {r : R} (n : Nat), K r → K (push n r)
  pop : ∀ {r : R}, K r → K (pop r)
  popE : ∀ {r : R}, E r → E (Reader.pop r)
  line : ∀ {r r' : R} {o : IoRes} {b : Bytes}, readUntilLf r = (o, b, r') → K r → K r' ∧ (o = .err .wouldBlock → E r')
  into : ∀ {r r' : R} {o : IoRes} {n : Nat} {d b : Bytes}, readInto n d r = (o, b, r') → K r → K r' ∧ (o = .err .wouldBlock → E r')
  toEnd : ∀ {r r' : R} {o : IoRes} {d b : Bytes}, readToEnd d r = (o, b, r') → K r → K r' ∧ (o = .err .wouldBlock → E r')

/-- What a parser leaves. -/
def Stopped (K E : R → Prop) {σ τ : Type} (x : Out σ τ × R) : Prop := K x.2 ∧ ∀ p, x.1 = .io p .wouldBlock → E x.2

theorem Stopped.bind {σ σ' τ τ' : Type} {o : Out σ τ} {r : R} (h : Stopped K E (o, r)) (g : σ → σ') (f : τ → Out σ' τ') (hf : ∀ v p, f v ≠ .io p .wouldBlock) :
    Stopped K E (o.bind g f, r) := by
  refine ⟨h.1, fun p hp => ?_⟩
  cases o with
  | io s e =>
    cases hp
    exact h.2 s rfl
  | done v => exact absurd hp (hf v p)
  | _ => cases hp

theorem Stopped.cast {σ σ' τ τ' : Type} {s : σ} {e : IoError} {r : R} (h : Stopped K E ((.io s e : Out σ τ), r)) (s' : σ') : Stopped K E ((.io s' e : Out σ' τ'), r) :=
  ⟨h.1, fun p hp => by cases hp; exact h.2 s rfl⟩

theorem Stopped.other {σ τ : Type} {o : Out σ τ} {r : R} (h : K r) (ho : ∀ p, o ≠ .io p .wouldBlock) : Stopped K E (o, r) :=
  ⟨h, fun p hp => absurd hp (ho p)⟩

variable (hS : Stops K E)
include hS

theorem Stops.popped {σ τ : Type} {o : Out σ τ} {r : R} (h : Stopped K E (o, r)) : Stopped K E (o, Reader.pop r) :=
  ⟨hS.pop h.1, fun p hp => hS.popE (h.2 p hp)⟩

theorem Stops.readLine {line b : Bytes} {r r' : R} {o : IoRes} (h : Verif.readLine line r = (o, b, r')) (hk : K r) : K r' ∧ (o = .err .wouldBlock → E r') := by
  unfold Verif.readLine at h
  cases hx : readUntilLf r with
  | mk o₁ y =>
  obtain ⟨b₁, r₁⟩ := y
  have := hS.line hx hk
  rw [hx] at h
  dsimp only at h
  split at h
  · cases h; exact this
  · cases o₁ with
    | ok => cases h; exact ⟨this.1, nofun⟩
    | err e => cases h; exact this
    | diverge => cases h; exact this

theorem Stops.lineDeframer (line : Bytes) {r : R} (hk : K r) : Stopped K E (LineDeframer.parse line r) := by
  unfold LineDeframer.parse
  cases hx : Verif.readLine line r with
  | mk o y =>
  obtain ⟨b, r₁⟩ := y
  have := hS.readLine hx hk
  cases o with
  | ok =>
    dsimp only
    split
    · split <;> exact .other this.1 nofun
    · exact .other this.1 nofun
  | err e => exact ⟨this.1, fun p hp => this.2 (by cases hp; rfl)⟩
  | diverge => exact .other this.1 nofun

theorem Stops.crlf (prof : Profile) (line : Bytes) {r : R} (hk : K r) : Stopped K E (CrlfLineParser.parse prof line r) := by
  unfold CrlfLineParser.parse
  split
  · exact .other hk nofun
  · next lim _ =>
    have := hS.lineDeframer line (hS.push lim hk)
    generalize LineDeframer.parse line (Reader.push lim r) = x at this
    obtain ⟨o, r₁⟩ := x
    cases o with
    | io s e =>
      dsimp only
      split
      · exact .other (hS.pop this.1) nofun
      · exact hS.popped (this.cast s)
    | done v => exact .other (hS.pop this.1) (by rintro p hp; cases hv : parseCrlfLine v <;> (rw [hv] at hp; cases hp))
    | perr e => exact .other (hS.pop this.1) nofun
    | panic => exact .other (hS.pop this.1) nofun
    | diverge => exact .other (hS.pop this.1) nofun

theorem Stops.headersLoop (prof : Profile) (f : Nat) (p : HeadersParser) {r : R} (hk : K r) : Stopped K E (HeadersParser.loop prof f p r) := by
  induction f generalizing p r with
  | zero => exact .other hk nofun
  | succ f ih =>
    unfold HeadersParser.loop
    have := hS.crlf prof p.inner hk
    generalize CrlfLineParser.parse prof p.inner r = x at this
    obtain ⟨o, r₁⟩ := x
    cases o with
    | done line =>
      dsimp only
      split
      · exact .other this.1 nofun
      · split
        · exact ih _ this.1
        · exact .other this.1 nofun
    | io s e => exact this.cast _
    | perr e => exact .other this.1 nofun
    | panic => exact .other this.1 nofun
    | diverge => exact .other this.1 nofun

theorem Stops.headers (prof : Profile) (p : HeadersParser) {r : R} (hk : K r) : Stopped K E (HeadersParser.parse prof p r) := by
  unfold HeadersParser.parse
  split
  · exact .other hk nofun
  · next lim _ => exact hS.popped (hS.headersLoop prof (fuel r) p (hS.push lim hk))

theorem Stops.bytes (p : BytesDeframer) {r : R} (hk : K r) : Stopped K E (BytesDeframer.parse p r) := by
  unfold BytesDeframer.parse
  cases hx : readInto p.size p.filled r with
  | mk o y =>
  obtain ⟨b, r₁⟩ := y
  have := hS.into hx hk
  cases o with
  | ok => exact .other this.1 nofun
  | err e => exact ⟨this.1, fun p hp => this.2 (by cases hp; rfl)⟩
  | diverge => exact .other this.1 nofun

theorem Stops.untilEof (d : Bytes) {r : R} (hk : K r) : Stopped K E (BytesUntilEofDeframer.parse d r) := by
  unfold BytesUntilEofDeframer.parse
  cases hx : readToEnd d r with
  | mk o y =>
  obtain ⟨b, r₁⟩ := y
  have := hS.toEnd hx hk
  cases o with
  | ok => exact .other this.1 nofun
  | err e => exact ⟨this.1, fun p hp => this.2 (by cases hp; rfl)⟩
  | diverge => exact .other this.1 nofun

theorem Stops.chunksLoop (prof : Profile) (f : Nat) (p : ChunksParser) {r : R} (hk : K r) : Stopped K E (ChunksParser.loop prof f p r) := by
  induction f generalizing p r with
  | zero => exact .other hk nofun
  | succ f ih =>
    obtain ⟨body, st⟩ := p
    cases st with
    | finished => exact .other hk nofun
    | size line =>
      unfold ChunksParser.loop
      have : Stopped K E (sizeState prof line r) := (hS.crlf prof line hk).bind _ _ (by rintro v p hp; split at hp <;> cases hp)
      dsimp only
      generalize sizeState prof line r = x at this
      obtain ⟨o, r₁⟩ := x
      cases o with
      | done st => exact ih _ this.1
      | io s e => exact this.cast _
      | perr e => exact .other this.1 nofun
      | panic => exact .other this.1 nofun
      | diverge => exact .other this.1 nofun
    | data d =>
      unfold ChunksParser.loop
      have : Stopped K E (dataState d body r) := (hS.bytes d hk).bind _ _ nofun
      dsimp only
      generalize dataState d body r = x at this
      obtain ⟨o, r₁⟩ := x
      cases o with
      | done st => exact ih _ this.1
      | io s e => exact this.cast _
      | perr e => exact .other this.1 nofun
      | panic => exact .other this.1 nofun
      | diverge => exact .other this.1 nofun
    | tailingCrlf line l =>
      unfold ChunksParser.loop
      have : Stopped K E (tailingCrlfState prof line l r) :=
        (hS.crlf prof line hk).bind _ _ (by rintro v p hp; split at hp; · cases hp
                                            split at hp <;> cases hp)
      dsimp only
      generalize tailingCrlfState prof line l r = x at this
      obtain ⟨o, r₁⟩ := x
      cases o with
      | done st => exact ih _ this.1
      | io s e => exact this.cast _
      | perr e => exact .other this.1 nofun
      | panic => exact .other this.1 nofun
      | diverge => exact .other this.1 nofun

theorem Stops.body (prof : Profile) (p : BodyParser) {r : R} (hk : K r) : Stopped K E (BodyParser.parse prof p r) := by
  unfold BodyParser.parse
  split
  · exact .other hk nofun
  · next lim _ =>
    cases p with
    | withSize p => exact hS.popped ((hS.bytes p (hS.push lim hk)).bind _ _ nofun)
    | untilEof d => exact hS.popped ((hS.untilEof d (hS.push lim hk)).bind _ _ nofun)
    | chunked p => exact hS.popped ((hS.chunksLoop prof (fuel r) p (hS.push lim hk)).bind _ _ nofun)
    | empty => exact .other hk nofun

theorem Stops.message {T : Type} (prof : Profile) (parseFirst : Bytes → Except ParsingError T) (b : Bool) (f : Nat) (st : MsgState T) {r : R} (hk : K r) :
    Stopped K E (MessageParser.loop prof parseFirst b f st r) := by
  induction f generalizing st r with
  | zero => exact .other hk nofun
  | succ f ih =>
    cases st with
    | finished t hs b => exact .other hk nofun
    | firstLine line =>
      unfold MessageParser.loop
      have : Stopped K E (firstLineState prof parseFirst line r) := (hS.crlf prof line hk).bind _ _ (by rintro v p hp; split at hp <;> cases hp)
      dsimp only
      generalize firstLineState prof parseFirst line r = x at this
      obtain ⟨o, r₁⟩ := x
      cases o with
      | done st => exact ih _ this.1
      | io s e => exact this.cast _
      | perr e => exact .other this.1 nofun
      | panic => exact .other this.1 nofun
      | diverge => exact .other this.1 nofun
    | headers t p =>
      unfold MessageParser.loop
      have : Stopped K E (headersState prof t p b r) := (hS.headers prof p hk).bind _ _ (by rintro v p hp; split at hp <;> cases hp)
      dsimp only
      generalize headersState prof t p b r = x at this
      obtain ⟨o, r₁⟩ := x
      cases o with
      | done st => exact ih _ this.1
      | io s e => exact this.cast _
      | perr e => exact .other this.1 nofun
      | panic => exact .other this.1 nofun
      | diverge => exact .other this.1 nofun
    | body t hs p =>
      unfold MessageParser.loop
      have : Stopped K E (bodyState prof t hs p r) := (hS.body prof p hk).bind _ _ nofun
      dsimp only
      generalize bodyState prof t hs p r = x at this
      obtain ⟨o, r₁⟩ := x
      cases o with
      | done st => exact ih _ this.1
      | io s e => exact this.cast _
      | perr e => exact .other this.1 nofun
      | panic => exact .other this.1 nofun
      | diverge => exact .other this.1 nofun

theorem Stops.request (prof : Profile) (p : RequestParser) {r : R} (hk : K r) : Stopped K E (RequestParser.parse prof p r) :=
  (hS.message prof parseRequestLine false 5 p hk).bind _ _ nofun

end

/-! ### Reading a stream that is read and written -/

section

variable {S : Type} [BufRead S] {K E : S → Prop}

/-- The same for a buffered stream. -/
structure Quits (K E : S → Prop) : Prop where
  fillBuf : ∀ {s : S}, K s → K (BufRead.fillBuf s).2 ∧ ((BufRead.fillBuf s).1 = .error .wouldBlock → E (BufRead.fillBuf s).2)
  consume : ∀ {s : S} (n : Nat), K s → K (BufRead.consume s n)
  read : ∀ {s : S} (n : Nat), K s → K (BufRead.read s n).2 ∧ ((BufRead.read s n).1 = .error .wouldBlock → E (BufRead.read s n).2)

variable (hQ : Quits K E)
include hQ

theorem Quits.fillBufL (ls : List Nat) {s : S} (h : K s) : K (Shared.fillBufL ls s).2 ∧ ((Shared.fillBufL ls s).1 = .error .wouldBlock → E (Shared.fillBufL ls s).2) := by
  induction ls with
  | nil => exact hQ.fillBuf h
  | cons l ls ih =>
    unfold Shared.fillBufL
    split
    · exact ⟨h, nofun⟩
    · generalize Shared.fillBufL ls s = x at ih
      obtain ⟨x, t⟩ := x
      cases x with
      | error e => exact ih
      | ok b => exact ⟨ih.1, nofun⟩

theorem Quits.consumeL (ls : List Nat) {s : S} (n : Nat) (h : K s) : K (Shared.consumeL ls s n).2 := by
  induction ls generalizing n with
  | nil => exact hQ.consume n h
  | cons l ls ih => exact ih _

theorem Quits.readL (ls : List Nat) {s : S} (n : Nat) (h : K s) : K (Shared.readL ls s n).2.2 ∧ ((Shared.readL ls s n).1 = .error .wouldBlock → E (Shared.readL ls s n).2.2) := by
  induction ls generalizing n with
  | nil => exact hQ.read n h
  | cons l ls ih =>
    unfold Shared.readL
    split
    · exact ⟨h, nofun⟩
    · have ih := ih (min n l)
      generalize Shared.readL ls s (min n l) = x at ih
      obtain ⟨x, ls', t⟩ := x
      cases x with
      | error e => exact ih
      | ok b => exact ⟨ih.1, nofun⟩

theorem Quits.readUntil (d : UInt8) (f : Nat) (acc : Bytes) (ls : List Nat) {s : S} (h : K s) :
    K (Shared.readUntil d f acc ls s).2.2.2 ∧ ((Shared.readUntil d f acc ls s).1 = .err .wouldBlock → E (Shared.readUntil d f acc ls s).2.2.2) := by
  induction f generalizing acc ls s with
  | zero => exact ⟨h, nofun⟩
  | succ f ih =>
    unfold Shared.readUntil
    have h1 := hQ.fillBufL ls h
    generalize Shared.fillBufL ls s = x at h1
    obtain ⟨x, t⟩ := x
    cases x with
    | error e => cases e <;> first | exact ih _ _ h1.1 | exact ⟨h1.1, fun _ => h1.2 rfl⟩ | exact ⟨h1.1, fun hw => by cases hw⟩
    | ok av =>
      dsimp only
      split
      · exact ⟨hQ.consumeL _ _ h1.1, nofun⟩
      · split
        · exact ⟨hQ.consumeL _ _ h1.1, nofun⟩
        · exact ih _ _ (hQ.consumeL _ _ h1.1)

theorem Quits.readInto (size f : Nat) (acc : Bytes) (ls : List Nat) {s : S} (h : K s) :
    K (Shared.readIntoLoop size f acc ls s).2.2.2 ∧ ((Shared.readIntoLoop size f acc ls s).1 = .err .wouldBlock → E (Shared.readIntoLoop size f acc ls s).2.2.2) := by
  induction f generalizing acc ls s with
  | zero => exact ⟨h, nofun⟩
  | succ f ih =>
    unfold Shared.readIntoLoop
    split
    · have h1 := hQ.readL ls (size - acc.length) h
      generalize Shared.readL ls s (size - acc.length) = x at h1
      obtain ⟨x, ls', t⟩ := x
      cases x with
      | error e => exact ⟨h1.1, fun hw => h1.2 (by cases hw; rfl)⟩
      | ok b =>
        dsimp only
        split
        · exact ⟨h1.1, nofun⟩
        · exact ih _ _ h1.1
    · exact ⟨h, nofun⟩

theorem Quits.readToEnd (offer : Nat → Nat) (f : Nat) (acc : Bytes) (ls : List Nat) {s : S} (h : K s) :
    K (Shared.readToEndLoop offer f acc ls s).2.2.2 ∧ ((Shared.readToEndLoop offer f acc ls s).1 = .err .wouldBlock → E (Shared.readToEndLoop offer f acc ls s).2.2.2) := by
  induction f generalizing acc ls s with
  | zero => exact ⟨h, nofun⟩
  | succ f ih =>
    unfold Shared.readToEndLoop
    have h1 := hQ.readL ls (offer acc.length + 1) h
    generalize Shared.readL ls s (offer acc.length + 1) = x at h1
    obtain ⟨x, ls', t⟩ := x
    cases x with
    | error e => cases e <;> first | exact ih _ _ h1.1 | exact ⟨h1.1, fun _ => h1.2 rfl⟩ | exact ⟨h1.1, fun hw => by cases hw⟩
    | ok b =>
      dsimp only
      split
      · exact ⟨h1.1, nofun⟩
      · exact ih _ _ h1.1

theorem Quits.stops : Stops (R := Shared S) (fun x => K x.stream) (fun x => E x.stream) where
  push _ h := h
  pop h := h
  popE h := h
  line {r r' o b} e h := by
    have := hQ.readUntil LF r.rounds [] r.lims h
    simp only [Reader.readUntilLf] at e
    cases e
    exact this
  into {r r' o n d b} e h := by
    have := hQ.readInto n r.rounds d r.lims h
    simp only [Reader.readInto] at e
    cases e
    exact this
  toEnd {r r' o d b} e h := by
    have := hQ.readToEnd r.offer r.rounds d r.lims h
    simp only [Reader.readToEnd] at e
    cases e
    exact this

end

/-! ### Writing -/

section

variable {W : Type} [Write W] {K : W → Prop}

/-- Writing preserves `K`. -/
structure WriteKeeps (K : W → Prop) : Prop where
  write : ∀ {w : W} (b : Bytes), K w → K (Write.write w b).2
  flush : ∀ {w : W}, K w → K (Write.flush w).2

variable (hK : WriteKeeps K)
include hK

theorem WriteKeeps.writeAllLoop (f : Nat) {w : W} (b : Bytes) (h : K w) : K (Write.writeAllLoop f w b).2 := by
  induction f generalizing w b with
  | zero => cases b <;> exact h
  | succ f ih =>
    cases b with
    | nil => exact h
    | cons c t =>
      simp only [Write.writeAllLoop]
      have := hK.write (c :: t) h
      generalize Write.write w (c :: t) = q at this
      obtain ⟨_ | n, w'⟩ := q
      · next e => cases e <;> first | exact this | exact ih _ this
      · cases n <;> first | exact this | exact ih _ this

theorem WriteKeeps.fmt (ps : List Bytes) {w : W} (h : K w) : K (Write.fmt w ps).2 := by
  induction ps generalizing w with
  | nil => exact h
  | cons p ps ih =>
    unfold Write.fmt
    have : K (Write.writeAll w p).2 := hK.writeAllLoop _ p h
    generalize Write.writeAll w p = q at this
    obtain ⟨_ | _ | _, w'⟩ := q
    · exact ih this
    · exact this
    · exact this

omit [Write W] hK in
theorem keeps_andThen {x : IoRes × W} {k : W → IoRes × W} (h : K x.2) (hk : ∀ w, K w → K (k w).2) : K (Write.andThen x k).2 := by
  obtain ⟨_ | _ | _, w⟩ := x
  · exact hk w h
  · exact h
  · exact h

omit [Write W] hK in
theorem keeps_res {α : Type} {x : Except IoError α × W} (h : K x.2) : K (Write.res x).2 := by
  obtain ⟨_ | _, w⟩ := x <;> exact h

theorem WriteKeeps.headerLines (hs : List (Header × Bytes)) {w : W} (h : K w) : K (Write.headerLines w hs).2 := by
  induction hs generalizing w with
  | nil => exact h
  | cons p hs ih => exact keeps_andThen (hK.fmt _ h) fun _ h => ih h

theorem WriteKeeps.answer (a : ListenerResult) {w : W} (h : K w) : K (putAnswer w a).2 := by
  have hr : ∀ r, K (writeResponse w r).2 := fun r => keeps_andThen (hK.fmt _ h) fun _ h => keeps_andThen (hK.headerLines _ h) fun _ h =>
    keeps_andThen (keeps_res (hK.write _ h)) fun _ h => keeps_andThen (keeps_res (hK.write _ h)) fun _ h => keeps_res (hK.flush h)
  cases a with
  | sendResponse r => exact hr r
  | sendResponseArc r => exact hr r
  | next => exact keeps_andThen (hK.writeAllLoop _ _ h) fun _ h => keeps_res (hK.flush h)

end

/-! ### The handler -/

section

variable {S σ : Type} [BufRead S] [Wr S] {K E : S → Prop}

omit [BufRead S] in
theorem WrKeeps.shared (h : WrKeeps K) : WriteKeeps (W := Shared S) fun x => K x.stream where
  write {w} b hk := by
    simp only [Write.write]
    split
    · next e => exact h.write e hk
    · exact hk
  flush {w} hk := by
    simp only [Write.flush]
    split
    · next e => exact h.flush e hk
    · exact hk

theorem Quits.respondLoop (hQ : Quits K E) (hW : WrKeeps K) (prof : Profile) (rt : Router σ) (f : Nat) {c c' : SharedConn S} {s s' : σ} (hk : K c.reader.stream)
    (h : SharedConn.respondLoop prof rt f c s = (.keep, c', s')) : E c'.reader.stream := by
  induction f generalizing c s with
  | zero => cases h
  | succ f ih =>
    unfold SharedConn.respondLoop Conn.readRequest at h
    have h1 := hQ.stops.request prof (c.parser.getD .new) (r := c.reader) hk
    generalize RequestParser.parse prof (c.parser.getD .new) c.reader = x at h h1
    obtain ⟨o, r⟩ := x
    cases o with
    | done q =>
      dsimp only at h
      rw [wrfr_put] at h
      generalize rt.result q s = y at h
      obtain ⟨a, s₁⟩ := y
      cases a with
      | none => cases h
      | some a =>
        dsimp only at h
        have h2 := hW.shared.answer a (w := r) h1.1
        generalize putAnswer r a = z at h h2
        obtain ⟨_ | _ | _, w⟩ := z
        · dsimp only at h
          split at h
          · cases h
          · exact ih h2 h
        · cases h
        · cases h
    | io p e =>
      by_cases he : e = .wouldBlock
      · subst he
        cases h
        exact h1.2 _ rfl
      · simp only [if_neg he] at h
        by_cases hc : isClosed p e
        · simp only [if_pos hc] at h
          cases h
        · simp only [if_neg hc] at h
          split at h <;> cases h
    | perr e =>
      dsimp only at h
      split at h <;> cases h
    | panic => cases h
    | diverge => cases h

theorem Quits.handle (hQ : Quits K E) (hW : WrKeeps K) (prof : Profile) (rt : Router σ) {c c' : SharedConn S} {s s' : σ} {o : HandleEnd} (hk : K c.reader.stream)
    (h : SharedConn.handle prof rt (.live c) s = (o, .live c', s')) : E c'.reader.stream := by
  unfold SharedConn.handle at h
  dsimp only at h
  have h1 := hW.shared.flush (w := c.reader) hk
  generalize Write.flush c.reader = x at h h1
  obtain ⟨_ | _, w⟩ := x
  · cases h
  · dsimp only at h
    cases hx : SharedConn.respondLoop prof rt w.rounds { c with reader := w } s with
    | mk e y =>
    obtain ⟨c₁, s₁⟩ := y
    rw [hx] at h
    cases e with
    | keep =>
      cases h
      exact hQ.respondLoop hW prof rt _ h1 hx
    | _ => cases h

end

section

variable {T : Type} [RawIO T] {P : T → Prop}

/-- The buffer of the reader is empty, and the last thing that was done with the raw stream was a `read` that said `WouldBlock`. -/
def ServerStack.Waits (P : T → Prop) (s : ServerStack T) : Prop :=
  s.val.inner.val.buf = [] ∧ ∃ t n, P t ∧ RawIO.read t n = (.error .wouldBlock, s.val.inner.val.inner)

theorem bufr_fill_waits (hP : RawReads P) {s : BufR T} (h : P s.inner) :
    P s.fillBuf.2.inner ∧ (s.fillBuf.1 = .error .wouldBlock → s.fillBuf.2.buf = [] ∧ ∃ t n, P t ∧ RawIO.read t n = (.error .wouldBlock, s.fillBuf.2.inner)) := by
  refine ⟨hP.fillBuf h, ?_⟩
  unfold BufR.fillBuf
  split
  · next hb =>
    cases hx : RawIO.read s.inner s.cap with
    | mk x t =>
    cases x with
    | error e =>
      intro he
      cases he
      exact ⟨hb, _, _, h, hx⟩
    | ok b => exact nofun
  · exact nofun

theorem server_quits (hP : RawReads P) : Quits (S := ServerStack T) (fun s => P s.val.inner.val.inner) (ServerStack.Waits P) where
  fillBuf {s} h := bufr_fill_waits hP h
  consume n h := h
  read {s} n h := by
    refine ⟨hP.bufRead n h, ?_⟩
    change (s.val.inner.val.read n).1 = _ → (s.val.inner.val.read n).2.buf = [] ∧ ∃ t m, P t ∧ RawIO.read t m = (.error .wouldBlock, (s.val.inner.val.read n).2.inner)
    unfold BufR.read
    split
    · next hb => exact fun he => ⟨hb.1, _, n, h, Prod.ext he rfl⟩
    · have := (bufr_fill_waits hP h).2
      generalize s.val.inner.val.fillBuf = x at this
      obtain ⟨x, t⟩ := x
      cases x with
      | error e => exact this
      | ok b => exact nofun

theorem server_waits {σ : Type} (hP : RawUses P) (prof : Profile) (rt : Router σ) {c c' : SharedConn (ServerStack T)} {s s' : σ} {o : HandleEnd}
    (hk : P c.reader.stream.val.inner.val.inner) (h : SharedConn.handle prof rt (.live c) s = (o, .live c', s')) : ServerStack.Waits P c'.reader.stream :=
  (server_quits hP.toRawReads).handle (hP.writeable.nb fun _ hb => hb).readable prof rt hk h

end

end Verif
