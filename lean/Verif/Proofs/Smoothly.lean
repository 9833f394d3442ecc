import Verif.Proofs.Waiting

/-!
A parser that got a request, or waits for more of it, has met neither the end of the stream nor an error in it, but for errors that say that there is nothing to read yet and
interruptions.
-/

namespace Verif

open Reader

variable {a₀ : List Atom} {prof : Profile}

/-- What a connection can live with. -/
def Atom.Mild (a : Atom) : Prop := (∃ b, a = .byte b) ∨ a = .err .interrupted ∨ a = .err .wouldBlock

/-- What was read of `a₀` is mild. -/
def AR.Since (a₀ : List Atom) (r : AR) : Prop := ∃ used, a₀ = used ++ r.atoms ∧ ∀ a ∈ used, a.Mild

theorem Quiet.mild {pre : List Atom} (h : Quiet pre) : ∀ a ∈ pre, a.Mild := fun a ha => (h a ha).imp id .inl

theorem AR.Since.more {r r' : AR} {pre : List Atom} (h : r.Since a₀) (he : r.atoms = pre ++ r'.atoms) (hm : ∀ a ∈ pre, a.Mild) : r'.Since a₀ := by
  obtain ⟨used, h1, h2⟩ := h
  refine ⟨used ++ pre, by rw [h1, he, List.append_assoc], fun a ha => ?_⟩
  rcases List.mem_append.1 ha with ha | ha
  · exact h2 a ha
  · exact hm a ha

/-- What a parser with states in `G` leaves if it is done or waits. -/
def Mildly (a₀ : List Atom) {σ τ : Type} (G : σ → Prop) (D : τ → Prop) (x : Out σ τ × AR) : Prop :=
  (∀ v, x.1 = .done v → D v ∧ x.2.Since a₀) ∧ ∀ p, x.1 = .io p .wouldBlock → G p ∧ x.2.Since a₀

theorem Mildly.bind {σ σ' τ τ' : Type} {G : σ → Prop} {G' : σ' → Prop} {D : τ → Prop} {D' : τ' → Prop} {o : Out σ τ} {r : AR} (h : Mildly a₀ G D (o, r)) (g : σ → σ') (f : τ → Out σ' τ')
    (hg : ∀ p, G p → G' (g p)) (hf : ∀ v, D v → ∀ w, f v = .done w → D' w) (hn : ∀ v p, f v ≠ .io p .wouldBlock) : Mildly a₀ G' D' (o.bind g f, r) := by
  cases o with
  | done v => exact ⟨fun w hw => ⟨hf v (h.1 v rfl).1 w hw, (h.1 v rfl).2⟩, fun p hp => absurd hp (hn v p)⟩
  | io s e =>
    refine ⟨nofun, fun p hp => ?_⟩
    cases hp
    exact ⟨hg _ (h.2 s rfl).1, (h.2 s rfl).2⟩
  | _ => exact ⟨nofun, nofun⟩

theorem Mildly.popped {σ τ : Type} {G : σ → Prop} {D : τ → Prop} {o : Out σ τ} {r : AR} (h : Mildly a₀ G D (o, r)) : Mildly a₀ G D (o, pop r) := h

theorem line_mildly {r : AR} (h : r.Since a₀) : ((readUntilLf r).1 = .err .wouldBlock → LF ∉ (readUntilLf r).2.1 ∧ (readUntilLf r).2.2.Since a₀) ∧
    ((readUntilLf r).1 = .ok → LF ∈ (readUntilLf r).2.1 → (readUntilLf r).2.2.Since a₀) := by
  obtain ⟨ls, as⟩ := r
  obtain ⟨pre, h1, -, -⟩ := scan_spec LF ls as
  change ((AR.scan LF ls as).1 = _ → LF ∉ (AR.scan LF ls as).2.1 ∧ AR.Since a₀ ⟨(AR.scan LF ls as).2.2.1, (AR.scan LF ls as).2.2.2⟩) ∧
    ((AR.scan LF ls as).1 = _ → LF ∈ (AR.scan LF ls as).2.1 → AR.Since a₀ ⟨(AR.scan LF ls as).2.2.1, (AR.scan LF ls as).2.2.2⟩)
  generalize AR.scan LF ls as = x at h1
  obtain ⟨o, b, ls', as'⟩ := x
  dsimp only at h1 ⊢
  cases h1 with
  | found h1 h2 =>
    refine ⟨nofun, fun _ _ => h.more (pre := pre ++ [.byte LF]) (by simp) fun a ha => ?_⟩
    rcases List.mem_append.1 ha with ha | ha
    · exact h1.mild a ha
    · exact .inl ⟨LF, by simpa using ha⟩
  | eof h1 h2 h3 => exact ⟨nofun, fun _ h => absurd h h2⟩
  | err e h1 h2 h3 h4 =>
    refine ⟨fun he => ⟨h2, ?_⟩, nofun⟩
    cases he
    refine h.more (pre := pre ++ [WB]) (by simp [WB]) fun a ha => ?_
    rcases List.mem_append.1 ha with ha | ha
    · exact h1.mild a ha
    · exact .inr (.inr (by simpa [WB] using ha))
  | limit h1 h2 h3 => exact ⟨nofun, nofun⟩
  | out h1 h2 h3 h4 => exact ⟨fun _ => ⟨h2, h.more (pre := as) (by simp [h4]) h1.mild⟩, nofun⟩

theorem readLine_mildly {line : Bytes} (hl : LF ∉ line) {r r' : AR} {o : IoRes} {b : Bytes} (e : readLine line r = (o, b, r')) (h : r.Since a₀) :
    (o = .err .wouldBlock → LF ∉ b ∧ r'.Since a₀) ∧ (o = .ok → LF ∈ b → r'.Since a₀) := by
  have h1 := line_mildly h
  unfold readLine at e
  generalize readUntilLf r = x at h1 e
  obtain ⟨o₁, b₁, r₁⟩ := x
  dsimp only at h1 e
  split at e
  · cases e
    refine ⟨fun he => ⟨fun hm => ?_, (h1.1 he).2⟩, fun he hm => h1.2 he ?_⟩
    · rcases List.mem_append.1 hm with hm | hm
      · exact hl hm
      · exact (h1.1 he).1 hm
    · rcases List.mem_append.1 hm with hm | hm
      · exact absurd hm hl
      · exact hm
  · cases o₁ with
    | ok => cases e; exact ⟨nofun, nofun⟩
    | err er => cases e; exact ⟨fun he => ⟨hl, (h1.1 he).2⟩, nofun⟩
    | diverge => cases e; exact ⟨nofun, nofun⟩

theorem deframe_mildly {line : Bytes} (hl : LF ∉ line) {r : AR} (h : r.Since a₀) : Mildly a₀ (LF ∉ ·) (fun _ => True) (LineDeframer.parse line r) := by
  unfold LineDeframer.parse
  cases hx : readLine line r with
  | mk o y =>
  obtain ⟨b, r₁⟩ := y
  have := readLine_mildly hl hx h
  cases o with
  | ok =>
    dsimp only
    split
    · next rest c hp =>
      split
      · next hc =>
        subst hc
        exact ⟨fun v _ => ⟨trivial, this.2 rfl (by rw [popChar_append hp]; simp)⟩, nofun⟩
      · exact ⟨nofun, nofun⟩
    · exact ⟨nofun, nofun⟩
  | err e =>
    refine ⟨nofun, fun p hp => ?_⟩
    cases hp
    exact this.1 rfl
  | diverge => exact ⟨nofun, nofun⟩

theorem crlf_mildly {line : Bytes} (hl : LF ∉ line) {r : AR} (h : r.Since a₀) : Mildly a₀ (LF ∉ ·) (fun _ => True) (CrlfLineParser.parse prof line r) := by
  unfold CrlfLineParser.parse
  split
  · exact ⟨nofun, nofun⟩
  · next lim _ =>
    have := deframe_mildly (a₀ := a₀) hl (r := push lim r) h
    generalize LineDeframer.parse line (push lim r) = x at this
    obtain ⟨o, r₁⟩ := x
    cases o with
    | io s e =>
      dsimp only
      split
      · exact ⟨nofun, nofun⟩
      · exact this
    | done v => exact ⟨fun w hw => ⟨trivial, (this.1 v rfl).2⟩, by rintro p hp; cases hv : parseCrlfLine v <;> (dsimp only at hp; rw [hv] at hp; cases hp)⟩
    | perr e => exact ⟨nofun, nofun⟩
    | panic => exact ⟨nofun, nofun⟩
    | diverge => exact ⟨nofun, nofun⟩

theorem headersLoop_mildly (f : Nat) {p : HeadersParser} (hp : LF ∉ p.inner) {r : AR} (h : r.Since a₀) :
    Mildly a₀ (fun p => LF ∉ p.inner) (fun _ => True) (HeadersParser.loop prof f p r) := by
  induction f generalizing p r with
  | zero => exact ⟨nofun, nofun⟩
  | succ f ih =>
    unfold HeadersParser.loop
    have := crlf_mildly (prof := prof) hp h
    generalize CrlfLineParser.parse prof p.inner r = x at this
    obtain ⟨o, r₁⟩ := x
    cases o with
    | done line =>
      dsimp only
      split
      · exact ⟨fun _ _ => ⟨trivial, (this.1 _ rfl).2⟩, nofun⟩
      · split
        · exact ih (by simp) (this.1 _ rfl).2
        · exact ⟨nofun, nofun⟩
    | io s e =>
      refine ⟨nofun, fun p hp => ?_⟩
      cases hp
      exact this.2 s rfl
    | perr e => exact ⟨nofun, nofun⟩
    | panic => exact ⟨nofun, nofun⟩
    | diverge => exact ⟨nofun, nofun⟩

theorem headers_mildly {p : HeadersParser} (hp : LF ∉ p.inner) {r : AR} (h : r.Since a₀) :
    Mildly a₀ (fun p => LF ∉ p.inner) (fun _ => True) (HeadersParser.parse prof p r) := by
  unfold HeadersParser.parse
  split
  · exact ⟨nofun, nofun⟩
  · next lim _ => exact (headersLoop_mildly (fuel r) hp (r := push lim r) h).popped

theorem bytes_mildly (p : BytesDeframer) {r : AR} (h : r.Since a₀) : Mildly a₀ (fun _ => True) (fun _ => True) (BytesDeframer.parse p r) := by
  obtain ⟨ls, as⟩ := r
  obtain ⟨h1, -⟩ := takeN_spec (p.size - p.filled.length) ls as
  have he : readInto p.size p.filled (⟨ls, as⟩ : AR) = ((AR.takeN (p.size - p.filled.length) ls as).1, p.filled ++ (AR.takeN (p.size - p.filled.length) ls as).2.1,
    ⟨(AR.takeN (p.size - p.filled.length) ls as).2.2.1, (AR.takeN (p.size - p.filled.length) ls as).2.2.2⟩) := rfl
  unfold BytesDeframer.parse
  rw [he]
  generalize AR.takeN (p.size - p.filled.length) ls as = x at h1
  obtain ⟨o, b, ls', as'⟩ := x
  dsimp only at h1
  have hb : ∀ a ∈ b.map Atom.byte, a.Mild := (quiet_map b).mild
  cases h1 with
  | full h1 => exact ⟨fun _ _ => ⟨trivial, h.more rfl hb⟩, nofun⟩
  | eof h1 h2 => exact ⟨nofun, nofun⟩
  | err e h1 h2 =>
    refine ⟨nofun, fun q hq => ?_⟩
    cases hq
    refine ⟨trivial, h.more (pre := b.map .byte ++ [WB]) (by simp [WB]) fun a ha => ?_⟩
    rcases List.mem_append.1 ha with ha | ha
    · exact hb a ha
    · exact .inr (.inr (by simpa [WB] using ha))
  | limit h1 h2 => exact ⟨nofun, nofun⟩
  | out h1 h2 h3 => exact ⟨nofun, fun _ _ => ⟨trivial, h.more (pre := b.map .byte) (by simp [h3]) hb⟩⟩

/-- No line feed in the line that is being read. -/
def ChunkState.NoLf : ChunkState → Prop
  | .size line => LF ∉ line
  | .tailingCrlf line _ => LF ∉ line
  | _ => True

theorem chunksLoop_mildly (f : Nat) {p : ChunksParser} (hp : p.state.NoLf) {r : AR} (h : r.Since a₀) :
    Mildly a₀ (fun p => p.state.NoLf) (fun _ => True) (ChunksParser.loop prof f p r) := by
  induction f generalizing p r with
  | zero => exact ⟨nofun, nofun⟩
  | succ f ih =>
    obtain ⟨body, st⟩ := p
    cases st with
    | finished => exact ⟨fun _ _ => ⟨trivial, h⟩, nofun⟩
    | size line =>
      unfold ChunksParser.loop
      have : Mildly a₀ ChunkState.NoLf ChunkState.NoLf (sizeState prof line r) := (crlf_mildly hp h).bind _ _ (fun _ h => h)
        (by rintro v - w hw; split at hw <;> cases hw; trivial) (by rintro v p hp; split at hp <;> cases hp)
      dsimp only
      generalize sizeState prof line r = x at this
      obtain ⟨o, r₁⟩ := x
      cases o with
      | done st => exact ih (this.1 _ rfl).1 (this.1 _ rfl).2
      | io s e => exact ⟨nofun, fun p hp => by cases hp; exact this.2 s rfl⟩
      | perr e => exact ⟨nofun, nofun⟩
      | panic => exact ⟨nofun, nofun⟩
      | diverge => exact ⟨nofun, nofun⟩
    | data d =>
      unfold ChunksParser.loop
      have : Mildly a₀ ChunkState.NoLf (fun x => x.1.NoLf) (dataState d body r) := (bytes_mildly d h).bind _ _ (fun _ _ => trivial)
        (by rintro v - w hw; cases hw; simp [ChunkState.NoLf]) nofun
      dsimp only
      generalize dataState d body r = x at this
      obtain ⟨o, r₁⟩ := x
      cases o with
      | done st => exact ih (this.1 _ rfl).1 (this.1 _ rfl).2
      | io s e => exact ⟨nofun, fun p hp => by cases hp; exact this.2 s rfl⟩
      | perr e => exact ⟨nofun, nofun⟩
      | panic => exact ⟨nofun, nofun⟩
      | diverge => exact ⟨nofun, nofun⟩
    | tailingCrlf line l =>
      unfold ChunksParser.loop
      have : Mildly a₀ ChunkState.NoLf ChunkState.NoLf (tailingCrlfState prof line l r) := (crlf_mildly hp h).bind _ _ (fun _ h => h)
        (by
          rintro v - w hw
          split at hw
          · cases hw
          · split at hw <;> (cases hw; simp [ChunkState.NoLf]))
        (by rintro v p hp; split at hp; · cases hp
            split at hp <;> cases hp)
      dsimp only
      generalize tailingCrlfState prof line l r = x at this
      obtain ⟨o, r₁⟩ := x
      cases o with
      | done st => exact ih (this.1 _ rfl).1 (this.1 _ rfl).2
      | io s e => exact ⟨nofun, fun p hp => by cases hp; exact this.2 s rfl⟩
      | perr e => exact ⟨nofun, nofun⟩
      | panic => exact ⟨nofun, nofun⟩
      | diverge => exact ⟨nofun, nofun⟩

/-- A state of the parser of a body that does not end with the stream. -/
def BodyParser.Framed : BodyParser → Prop
  | .untilEof _ => False
  | .chunked p => p.state.NoLf
  | _ => True

theorem body_mildly {p : BodyParser} (hp : p.Framed) {r : AR} (h : r.Since a₀) : Mildly a₀ BodyParser.Framed (fun _ => True) (BodyParser.parse prof p r) := by
  unfold BodyParser.parse
  split
  · exact ⟨nofun, nofun⟩
  · next lim _ =>
    cases p with
    | withSize p => exact ((bytes_mildly p (r := push lim r) h).bind BodyParser.withSize Out.done (fun _ _ => trivial) (fun _ _ _ _ => trivial) (fun _ _ => nofun)).popped
    | untilEof d => exact hp.elim
    | chunked p => exact ((chunksLoop_mildly (prof := prof) (fuel r) hp (r := push lim r) h).bind BodyParser.chunked Out.done (fun _ h => h) (fun _ _ _ _ => trivial) (fun _ _ => nofun)).popped
    | empty => exact ⟨fun _ _ => ⟨trivial, h⟩, nofun⟩

theorem body_new_framed {hs : HeaderMap} {p : BodyParser} (h : BodyParser.new hs false = .ok p) : p.Framed := by
  unfold BodyParser.new at h
  split at h
  · cases h
  · split at h <;> cases h
    trivial
  · split at h
    · cases h
      simp [BodyParser.Framed, ChunkState.NoLf]
    · cases h
      trivial

/-- A state of the parser of a request. -/
def MsgState.Framed {T : Type} : MsgState T → Prop
  | .firstLine line => LF ∉ line
  | .headers _ p => LF ∉ p.inner
  | .body _ _ p => p.Framed
  | .finished _ _ _ => True

theorem message_mildly {T : Type} {pf : Bytes → Except ParsingError T} (f : Nat) {st : MsgState T} (hp : st.Framed) {r : AR} (h : r.Since a₀) :
    Mildly a₀ MsgState.Framed (fun _ => True) (MessageParser.loop prof pf false f st r) := by
  induction f generalizing st r with
  | zero => exact ⟨nofun, nofun⟩
  | succ f ih =>
    cases st with
    | finished t hs b => exact ⟨fun _ _ => ⟨trivial, h⟩, nofun⟩
    | firstLine line =>
      unfold MessageParser.loop
      have : Mildly a₀ MsgState.Framed MsgState.Framed (firstLineState prof pf line r) := (crlf_mildly hp h).bind _ _ (fun _ h => h)
        (by rintro v - w hw; split at hw <;> cases hw; simp [MsgState.Framed, HeadersParser.new]) (by rintro v p hp; split at hp <;> cases hp)
      dsimp only
      generalize firstLineState prof pf line r = x at this
      obtain ⟨o, r₁⟩ := x
      cases o with
      | done st => exact ih (this.1 _ rfl).1 (this.1 _ rfl).2
      | io s e => exact ⟨nofun, fun p hp => by cases hp; exact this.2 s rfl⟩
      | perr e => exact ⟨nofun, nofun⟩
      | panic => exact ⟨nofun, nofun⟩
      | diverge => exact ⟨nofun, nofun⟩
    | headers t p =>
      unfold MessageParser.loop
      have : Mildly a₀ MsgState.Framed MsgState.Framed (headersState prof t p false r) := (headers_mildly hp h).bind _ _ (fun _ h => h)
        (by
          rintro v - w hw
          split at hw <;> cases hw
          next hb => exact body_new_framed hb) (by rintro v p hp; split at hp <;> cases hp)
      dsimp only
      generalize headersState prof t p false r = x at this
      obtain ⟨o, r₁⟩ := x
      cases o with
      | done st => exact ih (this.1 _ rfl).1 (this.1 _ rfl).2
      | io s e => exact ⟨nofun, fun p hp => by cases hp; exact this.2 s rfl⟩
      | perr e => exact ⟨nofun, nofun⟩
      | panic => exact ⟨nofun, nofun⟩
      | diverge => exact ⟨nofun, nofun⟩
    | body t hs p =>
      unfold MessageParser.loop
      have : Mildly a₀ MsgState.Framed MsgState.Framed (bodyState prof t hs p r) := (body_mildly hp h).bind _ _ (fun _ h => h) (fun _ _ _ hw => by cases hw; trivial) nofun
      dsimp only
      generalize bodyState prof t hs p r = x at this
      obtain ⟨o, r₁⟩ := x
      cases o with
      | done st => exact ih (this.1 _ rfl).1 (this.1 _ rfl).2
      | io s e => exact ⟨nofun, fun p hp => by cases hp; exact this.2 s rfl⟩
      | perr e => exact ⟨nofun, nofun⟩
      | panic => exact ⟨nofun, nofun⟩
      | diverge => exact ⟨nofun, nofun⟩

theorem request_mildly {p : RequestParser} (hp : p.Framed) {r : AR} (h : r.Since a₀) : Mildly a₀ MsgState.Framed (fun _ => True) (RequestParser.parse prof p r) :=
  (message_mildly 5 hp h).bind _ _ (fun _ h => h) (fun _ _ _ _ => trivial) nofun

theorem InProgress.mild {r₀ r : Rd} {p : RequestParser} (h : InProgress prof r₀ p r) {as : List Atom} (hr : r₀.Ahead as) (hs : AR.Since a₀ ⟨[], as⟩) :
    p.Framed ∧ ∃ as', r.Ahead as' ∧ AR.Since a₀ ⟨[], as'⟩ := by
  induction h with
  | new => exact ⟨by simp [RequestParser.new, MsgState.Framed], as, hr, hs⟩
  | pause _ hp ih =>
    obtain ⟨h1, as₁, h2, h3⟩ := ih
    obtain ⟨as₂, h4, h5⟩ := parse_ahead hp h2
    have := (request_mildly (prof := prof) h1 h3).2 _ (by rw [h5])
    rw [h5] at this
    exact ⟨this.1, as₂, h4, this.2⟩

theorem calls_mild {p : RequestParser} {r r' : Rd} {q : Request} (h : Calls (RequestParser.parse prof) p r (.done q) r') (hp : p.Framed) {as : List Atom} (hr : r.Ahead as)
    (hs : AR.Since a₀ ⟨[], as⟩) : ∃ as', r'.Ahead as' ∧ AR.Since a₀ ⟨[], as'⟩ := by
  generalize ho : Out.done q = o at h
  induction h generalizing as with
  | @last p r _ _ h =>
    subst ho
    obtain ⟨as₂, h4, h5⟩ := parse_ahead h hr
    have := (request_mildly (prof := prof) hp hs).1 _ (by rw [h5])
    rw [h5] at this
    exact ⟨as₂, h4, this.2⟩
  | @pause p _ r _ _ _ h _ ih =>
    obtain ⟨as₂, h4, h5⟩ := parse_ahead h hr
    have := (request_mildly (prof := prof) hp hs).2 _ (by rw [h5])
    rw [h5] at this
    exact ih this.1 h4 this.2 ho

theorem Heard.mild {r r₁ : Rd} {qs : List Request} (h : Heard prof r qs r₁) {as : List Atom} (hr : r.Ahead as) (hs : AR.Since a₀ ⟨[], as⟩) :
    ∃ as', r₁.Ahead as' ∧ AR.Since a₀ ⟨[], as'⟩ := by
  induction h generalizing as with
  | nil => exact ⟨as, hr, hs⟩
  | cons hc _ ih =>
    obtain ⟨as', h1, h2⟩ := calls_mild hc (by simp [RequestParser.new, MsgState.Framed]) hr hs
    exact ih h1 h2

/-- What was read on a connection is mild. -/
def Conn.Mild {W : Type} (a₀ : List Atom) (c : Conn Rd W) : Prop := (c.parser.getD .new).Framed ∧ ∃ as, c.reader.Ahead as ∧ AR.Since a₀ ⟨[], as⟩

theorem readRequest_mild {W : Type} {c c' : Conn Rd W} {x : ReadRequestResult} (h : c.Mild a₀) (e : c.readRequest prof = (x, c')) (hx : (∃ q, x = .ready q) ∨ x = .notReady) :
    c'.Mild a₀ := by
  obtain ⟨h1, as, h2, h3⟩ := h
  unfold Conn.readRequest at e
  cases hp : RequestParser.parse prof (c.parser.getD .new) c.reader with
  | mk o r =>
  rw [hp] at e
  obtain ⟨as', h4, h5⟩ := parse_ahead hp h2
  have h6 := request_mildly (prof := prof) h1 h3
  rw [h5] at h6
  have bad : ∀ {y : ReadRequestResult}, y = x → ((∀ q, y ≠ .ready q) ∧ y ≠ .notReady) → c'.Mild a₀ := by
    rintro y rfl ⟨k1, k2⟩
    rcases hx with ⟨q, k⟩ | k
    · exact absurd k (k1 q)
    · exact absurd k k2
  cases o with
  | done q =>
    cases e
    exact ⟨by simp [RequestParser.new, MsgState.Framed], as', h4, (h6.1 q rfl).2⟩
  | io p er =>
    by_cases hw : er = .wouldBlock
    · subst hw
      simp only [if_true] at e
      cases e
      exact ⟨(h6.2 p rfl).1, as', h4, (h6.2 p rfl).2⟩
    · simp only [if_neg hw] at e
      split at e <;> exact bad (Prod.mk.inj e).1 ⟨nofun, nofun⟩
  | perr er => exact bad (Prod.mk.inj e).1 ⟨nofun, nofun⟩
  | panic => exact bad (Prod.mk.inj e).1 ⟨nofun, nofun⟩
  | diverge => exact bad (Prod.mk.inj e).1 ⟨nofun, nofun⟩

variable {σ : Type} {rt : Router σ}

theorem respondLoop_mild {W : Type} [Write W] (f : Nat) {c c' : Conn Rd W} {s s' : σ} (h : c.Mild a₀) (e : respondLoop prof rt f c s = (.keep, c', s')) : c'.Mild a₀ := by
  induction f generalizing c s with
  | zero => cases e
  | succ f ih =>
    unfold respondLoop at e
    cases hx : c.readRequest prof with
    | mk x c₁ =>
    rw [hx] at e
    cases x with
    | ready q =>
      have h1 := readRequest_mild h hx (.inl ⟨q, rfl⟩)
      dsimp only at e
      cases hy : writeResponseFromRouter rt c₁.writer q s with
      | mk y z =>
      obtain ⟨w, s₁⟩ := z
      rw [hy] at e
      cases y with
      | none => cases e
      | some y =>
        cases y with
        | ok =>
          dsimp only at e
          split at e
          · cases e
          · exact ih (c := { c₁ with writer := w }) h1 e
        | _ => cases e
    | notReady =>
      cases e
      exact readRequest_mild h hx (.inr rfl)
    | closed => cases e
    | error er =>
      dsimp only at e
      split at e <;> cases e
    | panic => cases e
    | diverge => cases e

theorem handle_mild {W : Type} [Write W] {c c' : Conn Rd W} {s s' : σ} {o : HandleEnd} (h : c.Mild a₀) (e : handle prof rt (.live c) s = (o, .live c', s')) : c'.Mild a₀ := by
  unfold handle at e
  dsimp only at e
  cases hf : Write.flush c.writer with
  | mk x w =>
  rw [hf] at e
  cases x with
  | error er => cases e
  | ok u =>
    dsimp only at e
    cases hr : respondToRequests prof rt { c with writer := w } s with
    | mk x y =>
    obtain ⟨c₁, s₁⟩ := y
    rw [hr] at e
    cases x with
    | keep =>
      cases e
      exact respondLoop_mild _ (c := { c with writer := w }) h hr
    | _ => cases e

theorem handleAll_mild {es : List (List WEv)} {c c' : Conn Rd Nbw} {s s' : σ} (h : c.Mild a₀) (e : handleAll prof rt es (.live c) s = (.live c', s')) : c'.Mild a₀ := by
  induction es generalizing c s with
  | nil =>
    cases e
    exact h
  | cons evs es ih =>
    rw [handleAll] at e
    cases hx : handle prof rt ((Slot.live c).wake evs) s with
    | mk o y =>
    obtain ⟨l, s₁⟩ := y
    rw [hx] at e
    dsimp only at e
    cases l with
    | live c₁ => exact ih (handle_mild (c := { c with writer := { c.writer with sock := { c.writer.sock with evs } } }) h hx) e
    | gone c₁ => rw [handleAll_gone] at e; cases e
    | poisoned c₁ => rw [handleAll_poisoned] at e; cases e

end Verif
