import Verif.Proofs.Pauses

/-!
The end of the stream where a parser waits for more.
-/

namespace Verif

/-- The call fails: the stream has ended too early, or the input is malformed. -/
def EndsBad {σ τ : Type} (y : Out σ τ × AR) : Prop := (∃ s, y.1 = .io s .unexpectedEof) ∨ ∃ e, y.1 = .perr e

/-- Two runs, the second with the end of the stream after the input of the first. -/
def RelCut {σ τ : Type} (X : List Atom) (x y : Out σ τ × AR) : Prop :=
  (∃ v ls as, x = (.done v, ⟨ls, as⟩) ∧ WB ∉ as ∧ y = (.done v, ⟨ls, as ++ .eof :: X⟩)) ∨
    ((∃ s, x.1 = .io s .wouldBlock) ∧ EndsBad y) ∨
    ((∀ v, x.1 ≠ .done v) ∧ ∀ s, x.1 ≠ .io s .wouldBlock)

section

variable {X : List Atom}

theorem RelCut.cont {σ σ' τ τ' : Type} {x y : Out σ τ × AR} (h : RelCut X x y) (g : σ → σ') (k : τ → AR → Out σ' τ' × AR)
    (hk : ∀ v ls as, x = (.done v, ⟨ls, as⟩) → WB ∉ as → RelCut X (k v ⟨ls, as⟩) (k v ⟨ls, as ++ .eof :: X⟩)) :
    RelCut X (Out.cont g k x) (Out.cont g k y) := by
  rcases h with ⟨v, ls, as, rfl, h2, rfl⟩ | ⟨⟨s, h1⟩, h2⟩ | ⟨h1, h2⟩
  · exact hk v ls as rfl h2
  · obtain ⟨o, r⟩ := x
    obtain ⟨o', r'⟩ := y
    simp only at h1
    subst h1
    refine .inr (.inl ⟨⟨g s, rfl⟩, ?_⟩)
    rcases h2 with ⟨s', h2⟩ | ⟨e, h2⟩ <;> (simp only at h2; subst h2)
    · exact .inl ⟨g s', rfl⟩
    · exact .inr ⟨e, rfl⟩
  · obtain ⟨o, r⟩ := x
    refine .inr (.inr ?_)
    cases o with
    | done v => exact absurd rfl (h1 v)
    | io s e =>
      refine ⟨by simp [Out.cont], ?_⟩
      intro s' hs
      simp only [Out.cont, Out.io.injEq] at hs
      exact h2 s (by rw [hs.2])
    | _ => simp [Out.cont]

theorem RelCut.bind {σ σ' τ τ' : Type} {x y : Out σ τ × AR} (h : RelCut X x y) (g : σ → σ') (f : τ → Out σ' τ')
    (hf : ∀ v s, f v ≠ .io s .wouldBlock) : RelCut X (x.1.bind g f, x.2) (y.1.bind g f, y.2) := by
  have e : ∀ z : Out σ τ × AR, (z.1.bind g f, z.2) = Out.cont g (fun v r => (f v, r)) z := by
    intro z
    obtain ⟨o, r⟩ := z
    cases o <;> rfl
  rw [e, e]
  refine h.cont g _ fun v ls as _ hw => ?_
  cases hv : f v with
  | done w => exact .inl ⟨w, ls, as, rfl, hw, rfl⟩
  | io s e => exact .inr (.inr ⟨by simp, fun s' hs => hf v s' (by rw [hv]; exact hs)⟩)
  | _ => exact .inr (.inr ⟨by simp, by simp⟩)

theorem RelCut.pop {σ τ : Type} {x y : Out σ τ × AR} (h : RelCut X x y) :
    RelCut X (x.1, ⟨x.2.lims.tail, x.2.atoms⟩) (y.1, ⟨y.2.lims.tail, y.2.atoms⟩) := by
  rcases h with ⟨v, ls, as, rfl, h2, rfl⟩ | h | h
  · exact .inl ⟨v, ls.tail, as, rfl, h2, rfl⟩
  · exact .inr (.inl h)
  · exact .inr (.inr h)

theorem scan_cut (d : UInt8) (ls : List Nat) (as X : List Atom) (hw : WB ∉ as)
    (h : (AR.scan d ls as).1 = .err .wouldBlock) :
    d ∉ (AR.scan d ls as).2.1 ∧ ∃ ls', AR.scan d ls (as ++ .eof :: X) = (.ok, (AR.scan d ls as).2.1, ls', X) := by
  induction as generalizing ls with
  | nil =>
    by_cases h0 : 0 ∈ ls
    · simp [scan_zero d h0] at h
    · simp [scan_nil d h0, scan_eof d h0]
  | cons a as ih =>
    simp only [List.mem_cons, not_or] at hw
    by_cases h0 : 0 ∈ ls
    · simp [scan_zero d h0] at h
    · cases a with
      | byte b =>
        by_cases hb : b = d
        · subst hb; simp [scan_delim b h0] at h
        · rw [List.cons_append, scan_byte hb h0, scan_byte hb h0]
          rw [scan_byte hb h0] at h
          obtain ⟨h1, ls', h2⟩ := ih (decN 1 ls) hw.2 h
          exact ⟨by simp only [List.mem_cons, not_or]; exact ⟨Ne.symm hb, h1⟩, ls', by rw [h2]⟩
      | eof => simp [scan_eof d h0] at h
      | err e =>
        by_cases he : e = .interrupted
        · subst he
          rw [List.cons_append, scan_int d h0, scan_int d h0]
          rw [scan_int d h0] at h
          exact ih ls hw.2 h
        · simp [scan_err d he h0] at h
          subst h
          exact absurd rfl hw.1

theorem takeN_cut (n : Nat) (ls : List Nat) (as X : List Atom) (hw : WB ∉ as)
    (h : (AR.takeN n ls as).1 = .err .wouldBlock) :
    (AR.takeN n ls (as ++ .eof :: X)).1 = .err .unexpectedEof := by
  induction n generalizing ls as with
  | zero => simp [AR.takeN] at h
  | succ n ih =>
    by_cases h0 : 0 ∈ ls
    · simp [takeN_zero' h0] at h
    · cases as with
      | nil => simp [takeN_eof h0]
      | cons a as =>
        simp only [List.mem_cons, not_or] at hw
        cases a with
        | byte b =>
          rw [List.cons_append, takeN_byte h0]
          rw [takeN_byte h0] at h
          exact ih (decN 1 ls) as hw.2 h
        | eof => simp [takeN_eof h0] at h
        | err e =>
          simp [takeN_err h0] at h
          subst h
          exact absurd rfl hw.1

theorem crlf_cut (prof : Profile) {line : Bytes} (hl : LF ∉ line) (ls : List Nat) {as : List Atom} (hw : WB ∉ as) :
    RelCut X (CrlfLineParser.parse prof line (⟨ls, as⟩ : AR)) (CrlfLineParser.parse prof line (⟨ls, as ++ .eof :: X⟩ : AR)) := by
  cases hs : prof.sub maxLineSize line.length with
  | none => exact .inr (.inr (by simp [CrlfLineParser.parse, hs]))
  | some lim =>
    rw [crlf_eq prof line lim hs, crlf_eq prof line lim hs]
    rcases scan_append LF (lim :: ls) as (.eof :: X) with h | h
    · obtain ⟨h1, ls', h2⟩ := scan_cut LF (lim :: ls) as X hw h
      refine .inr (.inl ⟨?_, ?_⟩)
      · simp only [h, crlfOut]
        by_cases hv : utf8Valid (AR.scan LF (lim :: ls) as).2.1 = true
        · simp [hv]
        · simp [hv]
      · simp only [h2, EndsBad]
        rcases crlfOut_eof line _ hl h1 with h3 | ⟨rest, h3, -⟩
        · exact .inr ⟨_, h3⟩
        · exact .inl ⟨_, h3⟩
    · rw [h]
      have hsuf := scan_suffix LF (lim :: ls) as
      have hnw := scan_append LF (lim :: ls) as (.eof :: X)
      revert hsuf
      generalize hq : AR.scan LF (lim :: ls) as = q
      obtain ⟨o, bs, ls', as'⟩ := q
      intro hsuf
      simp only
      cases hc : crlfOut line o bs with
      | done v => exact .inl ⟨v, _, _, rfl, fun hm => hw (hsuf.subset hm), rfl⟩
      | io s e =>
        refine .inr (.inr ⟨by simp, fun s' hs' => ?_⟩)
        simp only [Out.io.injEq] at hs'
        obtain ⟨rfl, rfl⟩ := hs'
        have ho : o = .err .wouldBlock := by
          unfold crlfOut at hc
          by_cases hv : utf8Valid bs = true
          · simp only [hv, if_true] at hc
            cases o with
            | ok =>
              simp only at hc
              cases hp : popChar (line ++ bs) with
              | none => simp [hp] at hc
              | some p =>
                obtain ⟨rest, c⟩ := p
                simp only [hp] at hc
                by_cases hcc : c = [LF]
                · simp only [hcc, if_true] at hc
                  cases hpp : parseCrlfLine rest <;> simp [hpp, Out.ofExcept] at hc
                · simp [hcc] at hc
            | err e =>
              simp only at hc
              by_cases he : e = .invalidData
              · simp [he] at hc
              · simp only [he, if_false, Out.io.injEq] at hc
                rw [hc.2]
            | diverge => simp at hc
          · simp only [hv] at hc
            cases o with
            | ok => simp at hc
            | err e =>
              simp only at hc
              by_cases he : e = .invalidData
              · simp [he] at hc
              · simp [he] at hc
                rw [hc.2]
            | diverge => simp at hc
        subst ho
        obtain ⟨h1, ls2, h2⟩ := scan_cut LF (lim :: ls) as X hw (by rw [hq])
        rw [h, hq] at h2
        simp at h2
      | _ => exact .inr (.inr ⟨by simp, by simp⟩)

theorem bytes_cut (p : BytesDeframer) (ls : List Nat) {as : List Atom} (hw : WB ∉ as) :
    RelCut X (BytesDeframer.parse p (⟨ls, as⟩ : AR)) (BytesDeframer.parse p (⟨ls, as ++ .eof :: X⟩ : AR)) := by
  have e : ∀ bs : List Atom, BytesDeframer.parse p (⟨ls, bs⟩ : AR) =
      match AR.takeN (p.size - p.filled.length) ls bs with
      | (.ok, d, ls', as') => (.done (p.filled ++ d), ⟨ls', as'⟩)
      | (.err e, d, ls', as') => (.io ⟨p.size, p.filled ++ d⟩ e, ⟨ls', as'⟩)
      | (.diverge, _, ls', as') => (.diverge, ⟨ls', as'⟩) := by
    intro bs
    unfold BytesDeframer.parse
    simp only [Reader.readInto]
    generalize AR.takeN (p.size - p.filled.length) ls bs = q
    obtain ⟨o, d, ls', as'⟩ := q
    cases o <;> rfl
  rw [e, e]
  rcases takeN_append (p.size - p.filled.length) ls as (.eof :: X) with h | h
  · have h2 := takeN_cut _ _ _ X hw h
    refine .inr (.inl ⟨?_, ?_⟩)
    · revert h
      generalize AR.takeN (p.size - p.filled.length) ls as = q
      obtain ⟨o, d, ls', as'⟩ := q
      intro h
      simp only at h
      subst h
      exact ⟨_, rfl⟩
    · revert h2
      generalize AR.takeN (p.size - p.filled.length) ls (as ++ .eof :: X) = q
      obtain ⟨o, d, ls', as'⟩ := q
      intro h
      simp only at h
      subst h
      exact .inl ⟨_, rfl⟩
  · have hsp := (takeN_spec (p.size - p.filled.length) ls as).1
    rw [h]
    have hne : (AR.takeN (p.size - p.filled.length) ls as).1 ≠ .err .wouldBlock := by
      intro hwb
      have := takeN_cut _ _ _ X hw hwb
      rw [h] at this
      simp only at this
      rw [hwb] at this
      cases this
    revert hsp hne
    generalize AR.takeN (p.size - p.filled.length) ls as = q
    obtain ⟨o, d, ls', as'⟩ := q
    intro hsp hne
    simp only at hsp hne
    cases o with
    | ok =>
      refine .inl ⟨_, _, _, rfl, ?_, rfl⟩
      cases hsp with
      | full => exact fun hm => hw (by simp [hm])
    | err e =>
      refine .inr (.inr ⟨by simp, fun s hs => ?_⟩)
      simp only [Out.io.injEq] at hs
      exact hne (by rw [hs.2])
    | diverge => exact .inr (.inr ⟨by simp, by simp⟩)

theorem hrun_cut (prof : Profile) {p : HeadersParser} (hl : LF ∉ p.inner) (ls : List Nat) {as : List Atom} (hw : WB ∉ as) :
    RelCut X (hrun prof p ⟨ls, as⟩) (hrun prof p ⟨ls, as ++ .eof :: X⟩) := by
  obtain ⟨n, hn⟩ : ∃ n, as.length ≤ n := ⟨_, Nat.le_refl _⟩
  induction n using Nat.strongRecOn generalizing p ls as with
  | _ n ih =>
    rw [hrun_cont, hrun_cont]
    refine (crlf_cut prof hl ls hw).cont _ _ fun v ls' as' h1 hw' => ?_
    have hp := (crlf_progress prof p.inner (⟨ls, as⟩ : AR)).2.2 v (by rw [h1])
    rw [h1] at hp
    simp only at hp
    unfold headerNext
    by_cases hv : v = []
    · simp only [hv, if_true]
      exact .inl ⟨_, _, _, rfl, hw', rfl⟩
    · simp only [hv, if_false]
      cases parseHeader v with
      | error e => exact .inr (.inr ⟨by simp, by simp⟩)
      | ok hv => exact ih as'.length (by omega) (by simp) ls' hw' (Nat.le_refl _)

theorem chunkStep_cut (prof : Profile) (body : Bytes) {st : ChunkState} (hl : LF ∉ st.part) (ls : List Nat) {as : List Atom}
    (hw : WB ∉ as) : RelCut X (chunkStep prof body st ⟨ls, as⟩) (chunkStep prof body st ⟨ls, as ++ .eof :: X⟩) := by
  cases st with
  | finished => exact .inl ⟨_, _, _, rfl, hw, rfl⟩
  | size line =>
    have := ((crlf_cut prof (line := line) hl ls hw (X := X)).bind ChunkState.size (fun raw =>
      match parseChunkSize raw with
      | .ok n => Out.done (ChunkState.data ⟨n, []⟩)
      | .error e => .perr e) (by intro v s; cases parseChunkSize v <;> simp)).bind
        (fun st => (⟨body, st⟩ : ChunksParser)) (fun st => Out.done (⟨body, st⟩ : ChunksParser)) (by simp)
    exact this
  | data p =>
    exact ((bytes_cut p ls hw (X := X)).bind ChunkState.data
      (fun d => Out.done (ChunkState.tailingCrlf [] d.isEmpty, body ++ d)) (by simp)).bind
        (fun st => (⟨body, st⟩ : ChunksParser)) (fun x => Out.done (⟨x.2, x.1⟩ : ChunksParser)) (by simp)
  | tailingCrlf line l =>
    exact ((crlf_cut prof (line := line) hl ls hw (X := X)).bind (ChunkState.tailingCrlf · l) (fun line =>
      if line ≠ [] then Out.perr .badSyntax else if l then .done ChunkState.finished else .done (.size []))
        (by intro v s; by_cases h : v = [] <;> cases l <;> simp [h])).bind
        (fun st => (⟨body, st⟩ : ChunksParser)) (fun st => Out.done (⟨body, st⟩ : ChunksParser)) (by simp)

theorem chunkStep_part {prof : Profile} {body : Bytes} {st : ChunkState} (hst : st ≠ .finished) {r r' : AR} {p : ChunksParser}
    (h : chunkStep prof body st r = (.done p, r')) : p.state.part = [] := by
  cases st with
  | finished => exact absurd rfl hst
  | size line =>
    simp only [chunkStep, sizeState, Prod.mk.injEq] at h
    obtain ⟨st1, h1, h2⟩ := Out.bind_done h.1
    cases h2
    obtain ⟨raw, h3, h4⟩ := Out.bind_done h1
    cases hp : parseChunkSize raw with
    | ok n => simp only [hp] at h4; cases h4; rfl
    | error e => simp [hp] at h4
  | data d =>
    simp only [chunkStep, dataState, Prod.mk.injEq] at h
    obtain ⟨st1, h1, h2⟩ := Out.bind_done h.1
    cases h2
    obtain ⟨raw, h3, h4⟩ := Out.bind_done h1
    cases h4; rfl
  | tailingCrlf line l =>
    simp only [chunkStep, tailingCrlfState, Prod.mk.injEq] at h
    obtain ⟨st1, h1, h2⟩ := Out.bind_done h.1
    cases h2
    obtain ⟨raw, h3, h4⟩ := Out.bind_done h1
    by_cases hr : raw = []
    · cases l <;> simp [hr] at h4 <;> subst h4 <;> rfl
    · simp [hr] at h4

theorem crun_cut (prof : Profile) {p : ChunksParser} (hl : LF ∉ p.state.part) (ls : List Nat) {as : List Atom} (hw : WB ∉ as) :
    RelCut X (crun prof p ⟨ls, as⟩) (crun prof p ⟨ls, as ++ .eof :: X⟩) := by
  obtain ⟨n, hn⟩ : ∃ n, 3 * as.length + p.state.rank ≤ n := ⟨_, Nat.le_refl _⟩
  induction n using Nat.strongRecOn generalizing p ls as with
  | _ n ih =>
    by_cases hst : p.state = .finished
    · rw [crun_eq, crun_eq]
      simp only [hst, if_true]
      exact .inl ⟨_, _, _, rfl, hw, rfl⟩
    · rw [crun_cont _ _ _ hst, crun_cont _ _ _ hst]
      refine (chunkStep_cut prof p.body hl ls hw).cont _ _ fun p' ls' as' h1 hw' => ?_
      have hp := (chunkStep_progress prof p.body p.state (⟨ls, as⟩ : AR) hst).2.2 p' (by rw [h1])
      rw [h1] at hp
      simp only at hp
      exact ih (3 * as'.length + p'.state.rank) (by omega) (by rw [chunkStep_part hst h1]; simp) ls' hw' (Nat.le_refl _)

variable {T : Type}

/-- No line held has a line feed in it, and the body does not extend to the end of the stream. -/
def MsgState.Awaits : MsgState T → Prop
  | .firstLine line => LF ∉ line
  | .headers _ p => LF ∉ p.inner
  | .body _ _ (.untilEof _) => False
  | .body _ _ (.chunked p) => LF ∉ p.state.part
  | _ => True

theorem msgStep_cut (prof : Profile) (pf : Bytes → Except ParsingError T) (b : Bool) {st : MsgState T} (hst : st.Awaits)
    (ls : List Nat) {as : List Atom} (hw : WB ∉ as) :
    RelCut X (msgStep prof pf b st ⟨ls, as⟩) (msgStep prof pf b st ⟨ls, as ++ .eof :: X⟩) := by
  cases st with
  | finished t hs bd => exact .inl ⟨_, _, _, rfl, hw, rfl⟩
  | firstLine line =>
    exact (crlf_cut prof (line := line) hst ls hw (X := X)).bind MsgState.firstLine (fun l =>
      match pf l with
      | .ok t => Out.done (MsgState.headers t .new)
      | .error e => .perr e) (by intro v s; cases pf v <;> simp)
  | headers t p =>
    have h1 : RelCut X (HeadersParser.parse prof p (⟨ls, as⟩ : AR)) (HeadersParser.parse prof p (⟨ls, as ++ .eof :: X⟩ : AR)) := by
      rw [headersParse_eq, headersParse_eq]
      cases prof.sub maxHeadersSize p.read with
      | none => exact .inr (.inr ⟨by simp, by simp⟩)
      | some lim => exact (hrun_cut prof hst (lim :: ls) hw).pop
    exact h1.bind (MsgState.headers t) (fun hs =>
      match BodyParser.new hs b with
      | .ok bp => Out.done (MsgState.body t hs bp)
      | .error e => .perr e) (by intro v s; cases BodyParser.new v b <;> simp)
  | body t hs p =>
    have h1 : RelCut X (BodyParser.parse prof p (⟨ls, as⟩ : AR)) (BodyParser.parse prof p (⟨ls, as ++ .eof :: X⟩ : AR)) := by
      rw [bodyParse_eq, bodyParse_eq]
      cases prof.sub maxBodySize p.readSoFar with
      | none => exact .inr (.inr ⟨by simp, by simp⟩)
      | some lim =>
        cases p with
        | withSize p => exact ((bytes_cut p (lim :: ls) hw).bind BodyParser.withSize Out.done (by simp)).pop
        | untilEof d => exact hst.elim
        | chunked p => exact ((crun_cut prof (p := p) hst (lim :: ls) hw).bind BodyParser.chunked Out.done (by simp)).pop
        | empty => exact .inl ⟨_, _, _, rfl, hw, rfl⟩
    exact h1.bind (MsgState.body t hs) (fun b => Out.done (MsgState.finished t hs b)) (by simp)

theorem msgStep_awaits {prof : Profile} {pf : Bytes → Except ParsingError T} {st st' : MsgState T} {r r' : AR}
    (hst : st.Awaits) (h : msgStep prof pf false st r = (.done st', r')) : st'.Awaits := by
  cases st with
  | finished t hs bd => cases h; trivial
  | firstLine line =>
    simp only [msgStep, firstLineState, Prod.mk.injEq] at h
    obtain ⟨l, -, h2⟩ := Out.bind_done h.1
    cases hp : pf l with
    | ok t => simp only [hp] at h2; cases h2; simp [MsgState.Awaits, HeadersParser.new]
    | error e => simp [hp] at h2
  | headers t p =>
    simp only [msgStep, headersState, Prod.mk.injEq] at h
    obtain ⟨hs, -, h2⟩ := Out.bind_done h.1
    cases hp : BodyParser.new hs false with
    | error e => simp [hp] at h2
    | ok bp =>
      simp only [hp] at h2
      cases h2
      unfold BodyParser.new at hp
      cases hc : getContentLength hs with
      | some x =>
        cases x with
        | error e => simp [hc] at hp
        | ok n =>
          simp only [hc] at hp
          by_cases hn : n > maxBodySize
          · simp [hn] at hp
          · simp only [hn, if_false, Except.ok.injEq] at hp
            subst hp; trivial
      | none =>
        simp only [hc] at hp
        by_cases ht : isChunkedTransferEncoding hs = true
        · simp only [ht, if_true, Except.ok.injEq] at hp
          subst hp; simp [MsgState.Awaits, ChunkState.part]
        · simp [ht] at hp
          subst hp; trivial
  | body t hs p =>
    simp only [msgStep, bodyState, Prod.mk.injEq] at h
    obtain ⟨bd, -, h2⟩ := Out.bind_done h.1
    cases h2; trivial

theorem mrun_cut (prof : Profile) (pf : Bytes → Except ParsingError T) {st : MsgState T} (hst : st.Awaits)
    (ls : List Nat) {as : List Atom} (hw : WB ∉ as) :
    RelCut X (mrun prof pf false st ⟨ls, as⟩) (mrun prof pf false st ⟨ls, as ++ .eof :: X⟩) := by
  unfold mrun
  generalize 5 = f
  induction f generalizing st ls as with
  | zero => exact .inr (.inr ⟨by simp [MessageParser.loop], by simp [MessageParser.loop]⟩)
  | succ f ih =>
    cases hf : st.isFinished with
    | true =>
      cases st with
      | finished t hs bd => exact .inl ⟨_, _, _, rfl, hw, rfl⟩
      | _ => cases hf
    | false =>
      rw [messageLoop_cont _ _ _ _ _ _ hf, messageLoop_cont _ _ _ _ _ _ hf]
      exact (msgStep_cut prof pf false hst ls hw).cont _ _ fun st' ls' as' h hw' => ih (msgStep_awaits hst h) ls' hw'

/-- What has been read of a first line is not forgotten. -/
theorem mrun_past {prof : Profile} {pf : Bytes → Except ParsingError T} {b : Bool} {st : MsgState T}
    (hst : ∀ l, st ≠ .firstLine l) {r r' : AR} {s : MsgState T} {e : IoError}
    (h : mrun prof pf b st r = (.io s e, r')) : ∀ l, s ≠ .firstLine l := by
  unfold mrun at h
  generalize 5 = f at h
  induction f generalizing st r with
  | zero => simp [MessageParser.loop] at h
  | succ f ih =>
    cases st with
    | firstLine l => exact absurd rfl (hst l)
    | finished t hs bd => simp [MessageParser.loop] at h
    | headers t p =>
      rw [messageLoop_cont _ _ _ _ _ _ rfl] at h
      simp only [msgStep, headersState] at h
      cases hx : HeadersParser.parse prof p r with
      | mk o r1 =>
      rw [hx] at h
      cases o with
      | done v =>
        simp only [Out.bind] at h
        cases hb : BodyParser.new v b with
        | error e => simp [hb, Out.cont] at h
        | ok bp => simp only [hb, Out.cont] at h; exact ih (by simp) h
      | io s' e' => simp only [Out.bind, Out.cont, Prod.mk.injEq, Out.io.injEq] at h; rw [← h.1.1]; simp
      | _ => simp [Out.bind, Out.cont] at h
    | body t hs p =>
      rw [messageLoop_cont _ _ _ _ _ _ rfl] at h
      simp only [msgStep, bodyState] at h
      cases hx : BodyParser.parse prof p r with
      | mk o r1 =>
      rw [hx] at h
      cases o with
      | done v => simp only [Out.bind, Out.cont] at h; exact ih (by simp) h
      | io s' e' => simp only [Out.bind, Out.cont, Prod.mk.injEq, Out.io.injEq] at h; rw [← h.1.1]; simp
      | _ => simp [Out.bind, Out.cont] at h

end

end Verif
