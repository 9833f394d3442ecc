import Verif.Proofs.Sound
import Verif.Props.Basic

/-!
Soundness of whole messages: whatever the message parser accepts, in one call or several, is a message
of the grammar.
-/

namespace Verif

/-! ### First lines -/

theorem fields_rest (w : Bytes) : ∃ x xs, splitByte SP w = x :: xs ∧ SP ∉ x ∧
    (w = x ∨ ∃ t, w = x ++ SP :: t) := by
  have h := splitByte_fields w
  generalize splitByte SP w = fs at h
  cases h with
  | last h => exact ⟨w, [], rfl, h, .inl rfl⟩
  | more h _ => exact ⟨_, _, rfl, h, .inr ⟨_, rfl⟩⟩

theorem version_noSp {v : Bytes} (h : v = b!"HTTP/1.0" ∨ v = b!"HTTP/1.1") : SP ∉ v := by
  rcases h with rfl | rfl <;> decide

theorem method_noSp (m : Method) : SP ∉ m.text := by cases m <;> decide

theorem extra_split {v extra : Bytes} (hv : SP ∉ v) (he : extra = [] ∨ ∃ t, extra = SP :: t) :
    ∃ xs, splitByte SP (v ++ extra) = v :: xs := by
  rcases he with rfl | ⟨t, rfl⟩
  · exact ⟨[], by rw [List.append_nil, splitByte_last hv]⟩
  · exact ⟨_, splitByte_more hv t⟩

theorem requestLine_iff {l : Bytes} {m : Method} {u : Bytes} :
    parseRequestLine l = .ok (m, u) ↔ RequestLine m u l := by
  constructor
  · intro h
    have hf := splitByte_fields l
    have ho := C20_request_line l hf
    rw [h] at ho
    generalize splitByte SP l = fs at hf ho
    cases ho with
    | @ok t u v rest _ hv ht =>
      subst ht
      cases hf with
      | @more _ r1 _ h1 hf =>
      cases hf with
      | @more _ r2 _ h2 hf =>
      cases hf with
      | last h3 => exact ⟨v, [], hv, h2, .inl rfl, by simp [SP]⟩
      | @more _ r3 _ h3 hf => exact ⟨v, SP :: r3, hv, h2, .inr ⟨_, rfl⟩, by simp [SP]⟩
  · rintro ⟨v, extra, hv, hu, he, rfl⟩
    obtain ⟨xs, hx⟩ := extra_split (version_noSp hv) he
    have hs : splitByte SP (m.text ++ [SP] ++ u ++ [SP] ++ v ++ extra) = m.text :: u :: v :: xs := by
      have : m.text ++ [SP] ++ u ++ [SP] ++ v ++ extra = m.text ++ SP :: (u ++ SP :: (v ++ extra)) := by simp
      rw [this, splitByte_more (method_noSp m), splitByte_more hu, hx]
    unfold parseRequestLine
    rw [hs]
    simp only [versionSupported_iff.2 hv, Bool.true_eq_false, if_false, tryFromStr_text]

theorem statusLine_iff {l : Bytes} {s : Status} : parseStatusLine l = .ok s ↔ StatusLine s l := by
  constructor
  · intro h
    have hf := splitByte_fields l
    have ho := C20_status_line l hf
    rw [h] at ho
    generalize splitByte SP l = fs at hf ho
    cases ho with
    | @ok v c rest _ hv hs hc =>
      cases hf with
      | @more _ r1 _ h1 hf =>
      cases hf with
      | last h3 => exact ⟨v, c, [], hv, hs, hc, .inl rfl, by simp [SP]⟩
      | @more _ r3 _ h3 hf => exact ⟨v, c, SP :: r3, hv, hs, hc, .inr ⟨_, rfl⟩, by simp [SP]⟩
  · rintro ⟨v, c, extra, hv, hs, hc, he, rfl⟩
    have hp := (parseUnsigned_iff (radix := 10) (by omega)).2 ⟨hc, table_codes s hs⟩
    have hsp : SP ∉ c := by
      intro hmem
      obtain ⟨a, b, rfl⟩ := List.append_of_mem hmem
      rcases hc with hn | ⟨t, ht, hn⟩
      · have := numeral_digits hn SP (by simp); simp [SP] at this
      · cases a with
        | nil => simp [SP] at ht
        | cons x a =>
          simp only [List.cons_append, List.cons.injEq] at ht
          have := numeral_digits hn SP (by rw [← ht.2]; simp); simp [SP] at this
    obtain ⟨xs, hx⟩ := extra_split hsp he
    have hs' : splitByte SP (v ++ [SP] ++ c ++ extra) = v :: c :: xs := by
      have : v ++ [SP] ++ c ++ extra = v ++ SP :: (c ++ extra) := by simp
      rw [this, splitByte_more (version_noSp hv), hx]
    unfold parseStatusLine
    rw [hs']
    simp only [versionSupported_iff.2 hv, Bool.true_eq_false, if_false, hp, fromCode_table s hs]

/-! ### Messages -/

section
variable {T : Type}

theorem announces_parser {ps : List (Header × Bytes)} {b : Bool} {bp : BodyParser}
    (h : BodyParser.new (HeaderMap.fromPairs ps) b = .ok bp) :
    ∃ f, Announces ps b (.ok f) ∧ bp = f.parser := by
  obtain ⟨o, ho, he⟩ := C10_framing ps b
  rw [h] at he
  cases o with
  | error e => cases he
  | ok f => cases he; exact ⟨f, ho, rfl⟩

theorem parser_announces {ps : List (Header × Bytes)} {b : Bool} {f : Framing}
    (h : Announces ps b (.ok f)) : BodyParser.new (HeaderMap.fromPairs ps) b = .ok f.parser := by
  obtain ⟨o, ho, he⟩ := C10_framing ps b
  cases C10_framing_unique ho h
  exact he

theorem Announces.length_le {ps : List (Header × Bytes)} {b : Bool} {n : Nat}
    (h : Announces ps b (.ok (.length n))) : n ≤ 3 * 1024 * 1024 := by
  generalize hx : Except.ok (Framing.length n) = x at h
  cases h with
  | length => cases hx; assumption
  | none => cases b <;> simp at hx
  | _ => cases hx

theorem BodySt.start {ps : List (Header × Bytes)} {b : Bool} {f : Framing} (h : Announces ps b (.ok f)) :
    BodySt f f.parser [] := by
  cases f with
  | length n => exact .length h.length_le (by simp) (fun _ => rfl)
  | chunked => exact .chunked (ChunkSt.size (cs := []) (line := []) nofun .nil)
  | untilEof => exact .untilEof (by simp)
  | noBody => exact .empty

theorem start_held {ps : List (Header × Bytes)} {b : Bool} {f : Framing} (h : Announces ps b (.ok f)) : f.parser.held ≤ 6 * 1024 * 1024 := by
  cases f with
  | length n => have := h.length_le; simp only [Framing.parser, BodyParser.held]; omega
  | _ => simp [Framing.parser, BodyParser.held, ChunksParser.held]

/-- State of the message parser after consuming `w`; `single` says that no call has failed yet, the other
flag whether the end of stream was reached. -/
inductive MsgSt (prof : Profile) (pf : Bytes → Except ParsingError T) (b : Bool) (single : Bool) : Bool → MsgState T → Bytes → Prop
  | firstLine {line : Bytes} : LineSt line → MsgSt prof pf b single false (.firstLine line) line
  | headers {l : Bytes} {t : T} {p : HeadersParser} {fs : List (Bytes × Bytes)} : LineText l → pf l = .ok t →
      HeadSt p fs → (single = true → p = .new ∧ fs = []) →
      (prof.overflowChecks = true → (fieldLines fs).length + p.inner.length ≤ 8704) →
      MsgSt prof pf b single false (.headers t p) (l ++ CRLF ++ (fieldLines fs ++ p.inner))
  | body {l : Bytes} {t : T} {hs : HeaderMap} {fs : List (Bytes × Bytes)} {f : Framing} {p : BodyParser} {c : Bytes} :
      LineText l → pf l = .ok t → (∀ x ∈ fs, FieldText x) → hs = HeaderMap.fromPairs (fieldMap fs) →
      Announces (fieldMap fs) b (.ok f) → BodySt f p c →
      (single = true → (fieldLines fs).length + 2 ≤ 4096 ∧ p = f.parser ∧ c = []) →
      (prof.overflowChecks = true → (fieldLines fs).length + 2 ≤ 8704 ∧ p.held ≤ 6 * 1024 * 1024) →
      MsgSt prof pf b single false (.body t hs p) (l ++ CRLF ++ fieldLines fs ++ CRLF ++ c)
  | finished {l w bw : Bytes} {t : T} {hs : HeaderMap} {fs : List (Bytes × Bytes)} {f : Framing} {body : Bytes} :
      pf l = .ok t → MessageText l fs b f bw body w → hs = HeaderMap.fromPairs (fieldMap fs) →
      (single = true → Fits fs f bw) → (f ≠ .chunked → body.length ≤ 3 * 1024 * 1024) →
      (prof.overflowChecks = true → (fieldLines fs).length + 2 ≤ 8704 ∧ body.length ≤ 6 * 1024 * 1024) →
      (∀ n, f = .length n → n < 3 * 1024 * 1024) →
      MsgSt prof pf b single (decide (f = .untilEof)) (.finished t hs body) w

theorem Out.bind_io {σ σ' τ τ' : Type} {x : Out σ τ} {g : σ → σ'} {f : τ → Out σ' τ'} {s' : σ'} {e : IoError}
    (h : x.bind g f = .io s' e) (hf : ∀ v, f v ≠ .io s' e) : ∃ s, x = .io s e ∧ s' = g s := by
  cases x with
  | io s0 e0 => simp only [Out.bind, Out.io.injEq] at h; exact ⟨s0, by rw [h.2], h.1.symm⟩
  | done v => exact absurd h (hf v)
  | _ => simp [Out.bind] at h

theorem Out.bind_done {σ σ' τ τ' : Type} {x : Out σ τ} {g : σ → σ'} {f : τ → Out σ' τ'} {v' : τ'}
    (h : x.bind g f = .done v') : ∃ v, x = .done v ∧ f v = .done v' := by
  cases x with
  | done v => exact ⟨v, rfl, h⟩
  | _ => simp [Out.bind] at h

/-- What was consumed, depending on whether the end of stream was reached before and after. -/
def Between (e e' : Bool) (pre : List Atom) : Prop :=
  match e, e' with
  | false, e' => Ends e' pre
  | true, true => pre = []
  | true, false => False

theorem Between.refl (e : Bool) : Between e e [] := by
  cases e
  · exact quiet_nil
  · rfl

theorem Between.trans {e e' e'' : Bool} {p q : List Atom} (h : Between e e' p) (h' : Between e' e'' q) :
    Between e e'' (p ++ q) := by
  cases e with
  | true =>
    cases e' with
    | false => exact h.elim
    | true => cases e'' with
      | false => exact h'.elim
      | true => exact (by rw [show p = [] from h, show q = [] from h']; rfl)
  | false =>
    cases e' with
    | false =>
      cases e'' with
      | false => exact quiet_append.2 ⟨h, h'⟩
      | true =>
        obtain ⟨x, hx, rfl⟩ := h'
        exact ⟨p ++ x, quiet_append.2 ⟨h, hx⟩, by simp⟩
    | true =>
      cases e'' with
      | false => exact h'.elim
      | true =>
        obtain ⟨x, hx, rfl⟩ := h
        exact ⟨x, hx, by simp [show q = [] from h']⟩

theorem two_lines (fs : List (Bytes × Bytes)) : 4 * fs.length ≤ (fieldLines fs).length := by
  induction fs with
  | nil => simp
  | cons f fs ih =>
    simp only [fieldLines, List.flatMap_cons, List.length_append, List.length_cons, fieldLine] at ih ⊢
    have : CRLF.length = 2 := rfl
    have : b!": ".length = 2 := rfl
    omega

theorem msgStep_run {prof : Profile} {pf : Bytes → Except ParsingError T} {b single ended : Bool} {st : MsgState T}
    {w : Bytes} (hst : MsgSt prof pf b single ended st w) {a r : AR} {o : Out (MsgState T) (MsgState T)}
    (h : msgStep prof pf b st a = (o, r)) :
    (∀ st', o = .done st' → ∃ pre ended', Consumed pre a r ∧ Between ended ended' pre ∧
      MsgSt prof pf b single ended' st' (w ++ bytesOf pre)) ∧
    (∀ st' e, o = .io st' e → e ≠ .unexpectedEof →
      ∃ pre kept dropped, Consumed pre a r ∧ bytesOf pre = kept ++ dropped ∧ Dropped dropped ∧
        MsgSt prof pf b false false st' (w ++ kept) ∧ LF ∉ dropped) := by
  cases hst with
  | @firstLine line hl =>
    simp only [msgStep, firstLineState, Prod.mk.injEq] at h
    obtain ⟨rfl, rfl⟩ := h
    obtain ⟨hd, hio⟩ := crlf_run hl (prof := prof) (a := a) rfl
    constructor
    · intro st' hst'
      obtain ⟨l, hx, hy⟩ := Out.bind_done hst'
      obtain ⟨pre, hc, hlt, he⟩ := hd l hx
      cases hpf : pf l with
      | error e => simp [hpf] at hy
      | ok t =>
        simp only [hpf, Out.done.injEq] at hy
        subst hy
        refine ⟨pre, false, hc.toConsumed, hc.quiet, ?_⟩
        rw [he]
        have := MsgSt.headers (prof := prof) (b := b) (single := single) hlt hpf HeadSt.new (fun _ => ⟨rfl, rfl⟩) (fun _ => by decide)
        simpa [fieldLines, HeadersParser.new] using this
    · intro st' e hst' hne
      obtain ⟨s, hx, rfl⟩ := Out.bind_io hst' (by intro v; cases pf v <;> simp)
      obtain ⟨pre, kept, dropped, hc, hk, hdr, hl', hle, hlf⟩ := hio s e hx hne
      exact ⟨pre, kept, dropped, hc, hk, hdr, hle ▸ .firstLine hl', hlf⟩
  | @headers l t p fs hl hpf hp hs hchk₀ =>
    simp only [msgStep, headersState, Prod.mk.injEq] at h
    obtain ⟨rfl, rfl⟩ := h
    obtain ⟨hd, hio⟩ := headers_run hp (prof := prof) (a := a) rfl
    have hbig : prof.overflowChecks = true → ∀ lim, prof.sub maxHeadersSize p.read = some lim → (fieldLines fs).length + p.inner.length + lim ≤ 8704 := by
      intro hc' lim hlim
      have e2 := hp.read
      have e3 := hp.inner.short
      have e4 := two_lines fs
      have e5 : lim + p.read = 4096 := by
        simp only [Profile.sub, hc', maxHeadersSize] at hlim
        split at hlim
        · cases hlim; omega
        · simp at hlim
      omega
    constructor
    · intro st' hst'
      obtain ⟨hs', hx, hy⟩ := Out.bind_done hst'
      obtain ⟨pre, fs', lim, hc, hft, hm, he, hlim, hlen⟩ := hd hs' hx
      cases hbp : BodyParser.new hs' b with
      | error e => simp [hbp] at hy
      | ok bp =>
        simp only [hbp, Out.done.injEq] at hy
        subst hy
        rw [hm] at hbp
        obtain ⟨f, ha, rfl⟩ := announces_parser hbp
        refine ⟨pre, false, hc.toConsumed, hc.quiet, ?_⟩
        have hsing : single = true → (fieldLines fs').length + 2 ≤ 4096 := by
          intro h1
          obtain ⟨rfl, rfl⟩ := hs h1
          have e1 := congrArg List.length he
          simp only [fieldLines, HeadersParser.new, List.flatMap_nil, List.nil_append, List.length_append] at e1
          rw [sub_le prof (by simp [HeadersParser.new])] at hlim
          simp only [HeadersParser.new, maxHeadersSize, Option.some.injEq] at hlim
          have : CRLF.length = 2 := rfl
          simp only [fieldLines]
          omega
        have hchk : prof.overflowChecks = true → (fieldLines fs').length + 2 ≤ 8704 := by
          intro hc'
          have e1 := congrArg List.length he
          have e5 := hbig hc' lim hlim
          have : CRLF.length = 2 := rfl
          simp only [List.length_append] at e1
          omega
        have := MsgSt.body (prof := prof) (single := single) hl hpf hft hm ha (BodySt.start ha)
          (fun h1 => ⟨hsing h1, rfl, rfl⟩) (fun h => ⟨hchk h, start_held ha⟩)
        rw [List.append_assoc (l ++ CRLF), he]
        simpa using this
    · intro st' e hst' hne
      obtain ⟨s, hx, rfl⟩ := Out.bind_io hst' (by intro v; cases BodyParser.new v b <;> simp)
      obtain ⟨pre, fs', kept, dropped, hc, hk, hdr, hp', he, hlf, lim, hlim, hlen⟩ := hio s e hx hne
      refine ⟨pre, kept, dropped, hc, hk, hdr, ?_, hlf⟩
      rw [List.append_assoc (l ++ CRLF), he]
      refine .headers hl hpf hp' nofun fun h => ?_
      have e1 := congrArg List.length he
      have e2 := congrArg List.length hk
      have e3 := hbig h lim hlim
      simp only [List.length_append] at e1 e2
      omega
  | @body l t hs fs f p c hl hpf hft hm ha hp hs hchk =>
    simp only [msgStep, bodyState, Prod.mk.injEq] at h
    obtain ⟨rfl, rfl⟩ := h
    obtain ⟨hd, hio⟩ := body_run hp (prof := prof) (a := a) rfl
    constructor
    · intro st' hst'
      obtain ⟨bd, hx, hy⟩ := Out.bind_done hst'
      cases hy
      obtain ⟨pre, hc, hends, hbt, hlim, hmax, hsix, hlt⟩ := hd bd hx
      refine ⟨pre, _, hc, hends, ?_⟩
      rw [List.append_assoc _ c]
      refine .finished hpf ⟨hl, hft, ha, hbt, rfl⟩ hm ?_ hmax (fun h => ⟨(hchk h).1, hsix h⟩) hlt
      intro h1
      obtain ⟨h2, rfl, rfl⟩ := hs h1
      refine ⟨h2, ?_⟩
      cases f with
      | noBody => trivial
      | length n =>
        have hle := ha.length_le
        obtain ⟨hl1, -⟩ := hlim (maxBodySize - n) (sub_le prof (by simpa [Framing.parser, BodyParser.readSoFar, maxBodySize] using hle))
        obtain ⟨rfl, hn⟩ := hbt
        simp only [List.nil_append] at hn
        simp only [maxBodySize] at hl1 ⊢
        omega
      | chunked =>
        obtain ⟨hl1, -⟩ := hlim maxBodySize (sub_le prof (by simp [Framing.parser, BodyParser.readSoFar]))
        simpa [maxBodySize] using hl1
      | untilEof =>
        obtain ⟨-, hl1⟩ := hlim maxBodySize (sub_le prof (by simp [Framing.parser, BodyParser.readSoFar]))
        simpa [maxBodySize] using hl1 rfl
    · intro st' e hst' hne
      obtain ⟨s, hx, rfl⟩ := Out.bind_io hst' (by simp)
      obtain ⟨pre, kept, dropped, hc, hk, hdr, hp', hlf, hsix⟩ := hio s e hx hne
      refine ⟨pre, kept, dropped, hc, hk, hdr, ?_, hlf⟩
      rw [List.append_assoc _ c]
      exact .body hl hpf hft hm ha hp' nofun fun h => ⟨(hchk h).1, hsix h⟩
  | @finished l w bw t hs fs f body hpf hmt hm hfit hmax hchk hlt =>
    simp only [msgStep, Prod.mk.injEq] at h
    obtain ⟨rfl, rfl⟩ := h
    refine ⟨?_, nofun⟩
    intro st' hst'
    cases hst'
    exact ⟨[], _, .refl _, .refl _, by simpa [bytesOf] using MsgSt.finished hpf hmt hm hfit hmax hchk hlt⟩

theorem message_run {prof : Profile} {pf : Bytes → Except ParsingError T} {b single ended : Bool} (f : Nat)
    {st : MsgState T} {w : Bytes} (hst : MsgSt prof pf b single ended st w) {a r : AR}
    {o : Out (MsgState T) (T × HeaderMap × Bytes)} (h : MessageParser.loop prof pf b f st a = (o, r)) :
    (∀ t hs bd, o = .done (t, hs, bd) →
      ∃ pre ended', Consumed pre a r ∧ Between ended ended' pre ∧
        MsgSt prof pf b single ended' (.finished t hs bd) (w ++ bytesOf pre)) ∧
    (∀ st' e, o = .io st' e → e ≠ .unexpectedEof →
      ∃ pre kept dropped, Consumed pre a r ∧ bytesOf pre = kept ++ dropped ∧ Dropped dropped ∧
        MsgSt prof pf b false false st' (w ++ kept) ∧ LF ∉ dropped) := by
  induction f generalizing st w a ended with
  | zero =>
    simp only [MessageParser.loop, Prod.mk.injEq] at h
    obtain ⟨rfl, rfl⟩ := h
    exact ⟨nofun, nofun⟩
  | succ f ih =>
    by_cases hfin : st.isFinished = false
    · rw [messageLoop_step _ _ _ _ _ _ hfin] at h
      cases hs : msgStep prof pf b st a with
      | mk o1 r1 =>
      rw [hs] at h
      obtain ⟨hd, hio⟩ := msgStep_run hst hs
      cases o1 with
      | done st1 =>
        obtain ⟨pre1, e1, hc1, hb1, hst1⟩ := hd st1 rfl
        obtain ⟨h1, h2⟩ := ih hst1 h
        constructor
        · intro t hs bd ho
          obtain ⟨pre, e2, hc2, hb2, hm⟩ := h1 t hs bd ho
          exact ⟨pre1 ++ pre, e2, hc1.trans hc2, hb1.trans hb2, by rw [bytesOf_append, ← List.append_assoc]; exact hm⟩
        · intro p' e ho hne
          obtain ⟨pre, kept, dropped, hc2, hk, hdr, hst', hlf⟩ := h2 p' e ho hne
          refine ⟨pre1 ++ pre, bytesOf pre1 ++ kept, dropped, hc1.trans hc2, ?_, hdr, ?_, hlf⟩
          · rw [bytesOf_append, hk, List.append_assoc]
          · rw [← List.append_assoc]; exact hst'
      | io p1 e =>
        simp only [Prod.mk.injEq] at h
        obtain ⟨rfl, rfl⟩ := h
        refine ⟨nofun, ?_⟩
        intro p' e' heq hne
        cases heq
        exact hio p1 e rfl hne
      | _ =>
        simp only [Prod.mk.injEq] at h
        obtain ⟨rfl, rfl⟩ := h
        exact ⟨nofun, nofun⟩
    · cases st with
      | finished t hs bd =>
        rw [messageLoop_finished] at h
        simp only [Prod.mk.injEq] at h
        obtain ⟨rfl, rfl⟩ := h
        refine ⟨?_, nofun⟩
        intro t' hs' bd' heq
        cases heq
        exact ⟨[], _, .refl _, .refl _, by simpa [bytesOf] using hst⟩
      | _ => simp [MsgState.isFinished] at hfin

end

/-- The state of a request parser after consuming `w`. -/
abbrev RequestSt (prof : Profile) (single : Bool) (p : RequestParser) (w : Bytes) : Prop := MsgSt prof parseRequestLine false single false p w

/-- The state of a response parser after consuming `w`. -/
abbrev ResponseSt (prof : Profile) (single : Bool) (p : ResponseParser) (w : Bytes) : Prop := MsgSt prof parseStatusLine true single false p w

/-- A message with all bounds that the parser enforces: those of a single call if `single`. -/
def Bounded (prof : Profile) (single : Bool) (fs : List (Bytes × Bytes)) (f : Framing) (bw body : Bytes) : Prop :=
  (single = true → Fits fs f bw) ∧ (f ≠ .chunked → body.length ≤ 3 * 1024 * 1024) ∧
    (prof.overflowChecks = true → (fieldLines fs).length + 2 ≤ 8704 ∧ body.length ≤ 6 * 1024 * 1024) ∧
    (∀ n, f = .length n → n < 3 * 1024 * 1024)

theorem request_run {prof : Profile} {single : Bool} {p : RequestParser} {w : Bytes} (hp : RequestSt prof single p w)
    {a r : AR} {o : Out RequestParser Request} (h : RequestParser.parse prof p a = (o, r)) :
    (∀ q, o = .done q → ∃ pre line fs f bw, Consumed pre a r ∧ Ends (decide (f = .untilEof)) pre ∧ RequestLine q.method q.uri line ∧
      MessageText line fs false f bw q.body (w ++ bytesOf pre) ∧
      q.headers = HeaderMap.fromPairs (fieldMap fs) ∧ Bounded prof single fs f bw q.body) ∧
    (∀ p' e, o = .io p' e → e ≠ .unexpectedEof →
      ∃ pre kept dropped, Consumed pre a r ∧ bytesOf pre = kept ++ dropped ∧ Dropped dropped ∧
        RequestSt prof false p' (w ++ kept) ∧ LF ∉ dropped) := by
  simp only [RequestParser.parse, Prod.mk.injEq] at h
  obtain ⟨rfl, rfl⟩ := h
  obtain ⟨hd, hio⟩ := message_run (prof := prof) 5 hp (a := a) rfl
  constructor
  · intro q hq
    obtain ⟨⟨⟨m, u⟩, hs, bd⟩, hx, hy⟩ := Out.bind_done hq
    cases hy
    obtain ⟨pre, e, hc, hb, hm⟩ := hd (m, u) hs bd hx
    cases hm with
    | finished hpf hmt hm hfit hmax hchk hlt =>
      exact ⟨pre, _, _, _, _, hc, hb, requestLine_iff.1 hpf, hmt, hm, hfit, hmax, hchk, hlt⟩
  · intro p' e hp' hne
    obtain ⟨s, hx, hs⟩ := Out.bind_io hp' (by simp)
    rw [show p' = s from hs]
    exact hio s e hx hne

theorem response_run {prof : Profile} {single : Bool} {p : ResponseParser} {w : Bytes} (hp : ResponseSt prof single p w)
    {a r : AR} {o : Out ResponseParser Response} (h : ResponseParser.parse prof p a = (o, r)) :
    (∀ q, o = .done q → ∃ pre line fs f bw, Consumed pre a r ∧ Ends (decide (f = .untilEof)) pre ∧ StatusLine q.status line ∧
      MessageText line fs true f bw q.body (w ++ bytesOf pre) ∧
      q.headers = HeaderMap.fromPairs (fieldMap fs) ∧ Bounded prof single fs f bw q.body) ∧
    (∀ p' e, o = .io p' e → e ≠ .unexpectedEof →
      ∃ pre kept dropped, Consumed pre a r ∧ bytesOf pre = kept ++ dropped ∧ Dropped dropped ∧
        ResponseSt prof false p' (w ++ kept) ∧ LF ∉ dropped) := by
  simp only [ResponseParser.parse, Prod.mk.injEq] at h
  obtain ⟨rfl, rfl⟩ := h
  obtain ⟨hd, hio⟩ := message_run (prof := prof) 5 hp (a := a) rfl
  constructor
  · intro q hq
    obtain ⟨⟨t, hs, bd⟩, hx, hy⟩ := Out.bind_done hq
    cases hy
    obtain ⟨pre, e, hc, hb, hm⟩ := hd t hs bd hx
    cases hm with
    | finished hpf hmt hm hfit hmax hchk hlt =>
      exact ⟨pre, _, _, _, _, hc, hb, statusLine_iff.1 hpf, hmt, hm, hfit, hmax, hchk, hlt⟩
  · intro p' e hp' hne
    obtain ⟨s, hx, hs⟩ := Out.bind_io hp' (by simp)
    rw [show p' = s from hs]
    exact hio s e hx hne

end Verif
