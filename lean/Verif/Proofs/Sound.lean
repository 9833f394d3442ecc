import Verif.Proofs.Fuel
import Verif.Proofs.Text
import Verif.Proofs.Numeral
import Verif.Spec.Grammar

/-!
What the state of a parser says about the bytes it has consumed.
-/

namespace Verif

open Reader

/-- `pre` was consumed between `a` and `r`. -/
structure Consumed (pre : List Atom) (a r : AR) : Prop where
  atoms : a.atoms = pre ++ r.atoms
  lims : r.lims = decN (bytesOf pre).length a.lims
  room : ∀ x ∈ a.lims, (bytesOf pre).length ≤ x

theorem Consumed.refl (a : AR) : Consumed [] a a := ⟨rfl, by simp [bytesOf], by simp [bytesOf]⟩

theorem Consumed.trans {p q : List Atom} {a b c : AR} (h : Consumed p a b) (h' : Consumed q b c) :
    Consumed (p ++ q) a c := by
  refine ⟨by rw [h.atoms, h'.atoms, List.append_assoc], ?_, ?_⟩
  · rw [h'.lims, h.lims, decN_decN, bytesOf_append, List.length_append]
  · intro x hx
    have h1 := h.room x hx
    have h2 := h'.room (x - (bytesOf p).length) (by rw [h.lims]; simp only [decN, List.mem_map]; exact ⟨x, hx, rfl⟩)
    rw [bytesOf_append, List.length_append]; omega

theorem Consumed.pop {pre : List Atom} {l : Nat} {ls : List Nat} {as : List Atom} {r : AR}
    (h : Consumed pre ⟨l :: ls, as⟩ r) :
    Consumed pre ⟨ls, as⟩ ⟨r.lims.tail, r.atoms⟩ ∧ (bytesOf pre).length ≤ l := by
  refine ⟨⟨h.atoms, ?_, fun x hx => h.room x (List.mem_cons_of_mem _ hx)⟩, h.room l (by simp)⟩
  rw [h.lims]; simp

/-- `pre` was consumed between `a` and `r`, without an error other than retried interruptions. -/
structure Taken (pre : List Atom) (a r : AR) : Prop extends Consumed pre a r where
  quiet : Quiet pre

theorem Taken.refl (a : AR) : Taken [] a a := ⟨.refl a, quiet_nil⟩

theorem Taken.trans {p q : List Atom} {a b c : AR} (h : Taken p a b) (h' : Taken q b c) :
    Taken (p ++ q) a c := ⟨h.toConsumed.trans h'.toConsumed, quiet_append.2 ⟨h.quiet, h'.quiet⟩⟩

theorem Taken.pop {pre : List Atom} {l : Nat} {ls : List Nat} {as : List Atom} {r : AR}
    (h : Taken pre ⟨l :: ls, as⟩ r) :
    Taken pre ⟨ls, as⟩ ⟨r.lims.tail, r.atoms⟩ ∧ (bytesOf pre).length ≤ l :=
  ⟨⟨h.toConsumed.pop.1, h.quiet⟩, h.toConsumed.pop.2⟩

/-- Bytes lost by `read_line`: they were not valid UTF-8. -/
def Dropped (d : Bytes) : Prop := d = [] ∨ utf8Valid d = false

/-- An unfinished line kept by the parser. -/
structure LineSt (line : Bytes) : Prop where
  noLf : LF ∉ line
  utf8 : utf8Valid line = true
  short : line.length ≤ 512

theorem LineSt.nil : LineSt [] := ⟨by simp, rfl, by simp⟩

theorem utf8_left_of_ascii {a : Bytes} {c : UInt8} (hc : c < 128) (h : utf8Valid (a ++ [c]) = true) :
    utf8Valid a = true := by rwa [utf8_snoc_ascii hc] at h

/-- One call of the line parser. -/
theorem crlf_run {prof : Profile} {line : Bytes} (hl : LineSt line) {a r : AR} {o : Out Bytes Bytes}
    (h : CrlfLineParser.parse prof line a = (o, r)) :
    (∀ l, o = .done l → ∃ pre, Taken pre a r ∧ LineText l ∧ line ++ bytesOf pre = l ++ CRLF) ∧
    (∀ line' e, o = .io line' e → e ≠ .unexpectedEof →
      ∃ pre kept dropped, Consumed pre a r ∧ bytesOf pre = kept ++ dropped ∧ Dropped dropped ∧
        LineSt line' ∧ line' = line ++ kept ∧ LF ∉ dropped) := by
  obtain ⟨ls, as⟩ := a
  constructor
  · rintro l rfl
    obtain ⟨pre, hq, hlf, hv, he, ha, hlen, hls, hroom⟩ := crlf_done hl.short hl.noLf h
    have hb : bytesOf (pre ++ [.byte LF]) = bytesOf pre ++ [LF] := by simp [bytesOf_append, bytesOf]
    refine ⟨pre ++ [.byte LF], ⟨⟨by simp [ha], ?_, ?_⟩, quiet_append.2 ⟨hq, by simp [Quiet]⟩⟩, ⟨?_, ?_, ?_⟩, ?_⟩
    · rw [hls, hb]; simp
    · intro x hx; rw [hb]; simpa using hroom x hx
    · intro hm
      have : LF ∈ line ++ bytesOf pre := by rw [he]; simp [hm]
      simp only [List.mem_append] at this
      exact this.elim hl.noLf hlf
    · have : utf8Valid (l ++ [CR]) = true := by rw [← he, utf8_append hl.utf8]; exact hv
      exact utf8_left_of_ascii (by decide) this
    · have := congrArg List.length he
      simp at this hlen; omega
    · rw [hb, ← List.append_assoc, he]; simp
  · rintro line' e rfl hne
    obtain ⟨pre, post, hq, hlf, ha, hls, hroom, hlen, -, h1 | ⟨h1, h2⟩⟩ := crlf_io hl.short hl.noLf h
    · exact absurd h1.1 hne
    · have hb : bytesOf (pre ++ post) = bytesOf pre := by
        rw [bytesOf_append]
        rcases h1 with ⟨rfl, -⟩ | ⟨rfl, -⟩ <;> simp [bytesOf]
      have hc : Consumed (pre ++ post) ⟨ls, as⟩ r := ⟨ha, by rw [hb]; exact hls, by rw [hb]; exact hroom⟩
      by_cases hv : utf8Valid (bytesOf pre) = true
      · simp only [hv, if_true] at h2
        refine ⟨_, bytesOf pre, [], hc, by simp [hb], .inl rfl, ⟨?_, ?_, ?_⟩, h2, by simp⟩
        · rw [h2]; simp only [List.mem_append]; exact fun h => h.elim hl.noLf hlf
        · rw [h2, utf8_append hl.utf8]; exact hv
        · rw [h2]; exact hlen
      · simp only [hv] at h2
        exact ⟨_, [], bytesOf pre, hc, by simp [hb], .inr (by simpa using hv), h2 ▸ hl, by simpa using h2, hlf⟩

/-! ### Headers -/

theorem splitOnce_first {pat s a b : Bytes} (hp : pat ≠ []) (h : splitOnce pat s = some (a, b)) :
    ¬ Occurs pat a := by
  induction s generalizing a with
  | nil =>
    simp only [splitOnce] at h
    split at h
    · rename_i hpre
      cases pat with
      | nil => exact absurd rfl hp
      | cons => simp at hpre
    · cases h
  | cons c t ih =>
    simp only [splitOnce] at h
    split at h
    · simp only [Option.some.injEq, Prod.mk.injEq] at h
      obtain ⟨rfl, -⟩ := h
      rintro ⟨x, y, hxy⟩
      have := congrArg List.length hxy
      simp only [List.length_append, List.length_nil] at this
      exact hp (List.length_eq_zero_iff.1 (by omega))
    · rename_i hpre
      cases hs : splitOnce pat t with
      | none => simp [hs] at h
      | some ab =>
        simp only [hs, Option.map_some, Option.some.injEq, Prod.mk.injEq] at h
        obtain ⟨rfl, rfl⟩ := h
        rintro ⟨x, y, hxy⟩
        cases x with
        | nil =>
          apply hpre
          rw [List.isPrefixOf_iff_prefix]
          rw [splitOnce_some hs]
          exact ⟨y ++ (pat ++ ab.2), by simp only [List.nil_append] at hxy; rw [← List.append_assoc, ← hxy]; simp⟩
        | cons d x =>
          simp only [List.cons_append, List.cons.injEq] at hxy
          exact ih hs ⟨x, y, hxy.2⟩

theorem parseHeader_ok {line : Bytes} {h : Header} {v : Bytes} (hp : parseHeader line = .ok (h, v)) :
    ∃ name, line = fieldLine (name, v) ∧ h = Header.ofStr name ∧ ¬ Occurs b!": " name := by
  unfold parseHeader at hp
  cases hs : splitOnce b!": " line with
  | none => simp [hs] at hp
  | some ab =>
    simp only [hs, Except.ok.injEq, Prod.mk.injEq] at hp
    obtain ⟨rfl, rfl⟩ := hp
    exact ⟨ab.1, splitOnce_some hs, rfl, splitOnce_first (by simp) hs⟩

/-- State of the headers parser after the lines of some fields. -/
structure HeadSt (p : HeadersParser) (fs : List (Bytes × Bytes)) : Prop where
  fields : ∀ x ∈ fs, FieldText x
  headers : p.headers = HeaderMap.fromPairs (fieldMap fs)
  inner : LineSt p.inner
  read : p.read + 2 * fs.length = (fieldLines fs).length

theorem HeadSt.new : HeadSt .new [] := ⟨by simp, rfl, .nil, rfl⟩

theorem fieldLines_snoc (fs : List (Bytes × Bytes)) (f : Bytes × Bytes) :
    fieldLines (fs ++ [f]) = fieldLines fs ++ fieldLine f ++ CRLF := by
  simp [fieldLines]

theorem hrun_run {prof : Profile} {p : HeadersParser} {fs : List (Bytes × Bytes)} (hp : HeadSt p fs)
    {a r : AR} {o : Out HeadersParser HeaderMap} (h : hrun prof p a = (o, r)) :
    (∀ hs, o = .done hs → ∃ pre fs', Taken pre a r ∧ (∀ x ∈ fs', FieldText x) ∧
      hs = HeaderMap.fromPairs (fieldMap fs') ∧
      fieldLines fs ++ p.inner ++ bytesOf pre = fieldLines fs' ++ CRLF) ∧
    (∀ p' e, o = .io p' e → e ≠ .unexpectedEof →
      ∃ pre fs' kept dropped, Consumed pre a r ∧ bytesOf pre = kept ++ dropped ∧ Dropped dropped ∧
        HeadSt p' fs' ∧ fieldLines fs ++ p.inner ++ kept = fieldLines fs' ++ p'.inner ∧ LF ∉ dropped) := by
  obtain ⟨n, hn⟩ : ∃ n, a.atoms.length ≤ n := ⟨_, Nat.le_refl _⟩
  induction n using Nat.strongRecOn generalizing p fs a with
  | _ n ih =>
    rw [hrun_eq] at h
    have hprog := crlf_progress prof p.inner a
    revert h hprog
    cases hc : CrlfLineParser.parse prof p.inner a with
    | mk o1 r1 =>
    intro h hprog
    obtain ⟨hd, hio⟩ := crlf_run hp.inner hc
    cases o1 with
    | done line =>
      obtain ⟨pre1, hc1, hlt, he1⟩ := hd line rfl
      have hlt1 := hprog.2.2 line rfl
      simp only at h hlt1
      by_cases hnil : line = []
      · simp only [hnil, if_true, Prod.mk.injEq] at h
        obtain ⟨rfl, rfl⟩ := h
        refine ⟨?_, nofun⟩
        rintro hs hhs
        cases hhs
        refine ⟨pre1, fs, hc1, hp.fields, hp.headers, ?_⟩
        rw [List.append_assoc, he1, hnil]; rfl
      · simp only [hnil, if_false] at h
        cases hph : parseHeader line with
        | error e =>
          simp only [hph, Prod.mk.injEq] at h
          obtain ⟨rfl, rfl⟩ := h
          exact ⟨nofun, nofun⟩
        | ok hv =>
          obtain ⟨hh, v⟩ := hv
          simp only [hph] at h
          obtain ⟨name, hname, rfl, hocc⟩ := parseHeader_ok hph
          have hst : HeadSt ⟨[], p.headers.addHeader (Header.ofStr name) v, p.read + line.length⟩
              (fs ++ [(name, v)]) := by
            refine ⟨?_, ?_, .nil, ?_⟩
            · intro x hx
              simp only [List.mem_append, List.mem_singleton] at hx
              rcases hx with hx | rfl
              · exact hp.fields x hx
              · exact ⟨hname ▸ hlt, hocc⟩
            · simp only [fieldMap, List.map_append, List.map_cons, List.map_nil]
              rw [HeaderMap.fromPairs_snoc, hp.headers]; rfl
            · have := hp.read
              rw [fieldLines_snoc]
              simp only [List.length_append, List.length_cons, List.length_nil, ← hname]
              omega
          have hpe : fieldLines fs ++ p.inner ++ bytesOf pre1 = fieldLines (fs ++ [(name, v)]) := by
            rw [fieldLines_snoc, List.append_assoc, he1, hname, List.append_assoc]
          obtain ⟨h1, h2⟩ := ih _ (Nat.lt_of_lt_of_le hlt1 hn) hst h (Nat.le_refl _)
          constructor
          · rintro hs rfl
            obtain ⟨pre, fs', hc2, hf, hm, he⟩ := h1 hs rfl
            refine ⟨pre1 ++ pre, fs', hc1.trans hc2, hf, hm, ?_⟩
            rw [bytesOf_append, ← List.append_assoc, hpe]
            simpa using he
          · rintro p' e rfl hne
            obtain ⟨pre, fs', kept, dropped, hc2, hk, hdr, hst', he, hlf⟩ := h2 p' e rfl hne
            refine ⟨pre1 ++ pre, fs', bytesOf pre1 ++ kept, dropped, hc1.toConsumed.trans hc2, ?_, hdr, hst', ?_, hlf⟩
            · rw [bytesOf_append, hk, List.append_assoc]
            · rw [← List.append_assoc, hpe]; simpa using he
    | io line' e =>
      simp only [Prod.mk.injEq] at h
      obtain ⟨rfl, rfl⟩ := h
      refine ⟨nofun, ?_⟩
      rintro p' e' heq hne
      cases heq
      obtain ⟨pre, kept, dropped, hc1, hk, hdr, hl', hle, hlf⟩ := hio line' e rfl hne
      refine ⟨pre, fs, kept, dropped, hc1, hk, hdr, ⟨hp.fields, hp.headers, hl', hp.read⟩, ?_, hlf⟩
      simp [hle]
    | perr e =>
      simp only [Prod.mk.injEq] at h
      obtain ⟨rfl, rfl⟩ := h
      exact ⟨nofun, nofun⟩
    | panic =>
      simp only [Prod.mk.injEq] at h
      obtain ⟨rfl, rfl⟩ := h
      exact ⟨nofun, nofun⟩
    | diverge => exact absurd rfl hprog.1

/-- A whole call of the headers parser. -/
theorem headers_run {prof : Profile} {p : HeadersParser} {fs : List (Bytes × Bytes)} (hp : HeadSt p fs)
    {a r : AR} {o : Out HeadersParser HeaderMap} (h : HeadersParser.parse prof p a = (o, r)) :
    (∀ hs, o = .done hs → ∃ pre fs' lim, Taken pre a r ∧ (∀ x ∈ fs', FieldText x) ∧
      hs = HeaderMap.fromPairs (fieldMap fs') ∧
      fieldLines fs ++ p.inner ++ bytesOf pre = fieldLines fs' ++ CRLF ∧
      prof.sub maxHeadersSize p.read = some lim ∧ (bytesOf pre).length ≤ lim) ∧
    (∀ p' e, o = .io p' e → e ≠ .unexpectedEof →
      ∃ pre fs' kept dropped, Consumed pre a r ∧ bytesOf pre = kept ++ dropped ∧ Dropped dropped ∧
        HeadSt p' fs' ∧ fieldLines fs ++ p.inner ++ kept = fieldLines fs' ++ p'.inner ∧ LF ∉ dropped ∧
        ∃ lim, prof.sub maxHeadersSize p.read = some lim ∧ (bytesOf pre).length ≤ lim) := by
  obtain ⟨ls, as⟩ := a
  rw [headersParse_eq] at h
  cases hl : prof.sub maxHeadersSize p.read with
  | none =>
    simp only [hl, Prod.mk.injEq] at h
    obtain ⟨rfl, rfl⟩ := h
    exact ⟨nofun, nofun⟩
  | some lim =>
    simp only [hl, Prod.mk.injEq] at h
    obtain ⟨rfl, rfl⟩ := h
    obtain ⟨h1, h2⟩ := hrun_run hp (prof := prof) (a := ⟨lim :: ls, as⟩) rfl
    constructor
    · intro hs ho
      obtain ⟨pre, fs', hc, hf, hm, he⟩ := h1 hs ho
      exact ⟨pre, fs', lim, hc.pop.1, hf, hm, he, rfl, hc.pop.2⟩
    · intro p' e ho hne
      obtain ⟨pre, fs', kept, dropped, hc, h3, h4, h5, h6, h7⟩ := h2 p' e ho hne
      exact ⟨pre, fs', kept, dropped, hc.pop.1, h3, h4, h5, h6, h7, lim, rfl, hc.pop.2⟩

/-! ### Bodies -/

theorem bytes_run {p : BytesDeframer} (hp : p.filled.length ≤ p.size) {a r : AR} {o : Out BytesDeframer Bytes}
    (h : BytesDeframer.parse p a = (o, r)) :
    (∀ d, o = .done d → ∃ pre, Taken pre a r ∧ d = p.filled ++ bytesOf pre ∧ d.length = p.size) ∧
    (∀ p' e, o = .io p' e → ∃ pre, Consumed pre a r ∧ p'.size = p.size ∧
      p'.filled = p.filled ++ bytesOf pre ∧ p'.filled.length ≤ p.size) := by
  obtain ⟨ls, as⟩ := a
  rw [bytesDeframer_eq] at h
  obtain ⟨h1, h2, h3⟩ := takeN_spec (p.size - p.filled.length) ls as
  revert h h1 h2 h3
  generalize AR.takeN (p.size - p.filled.length) ls as = q
  obtain ⟨o', b, ls', as'⟩ := q
  simp only
  intro h h1 h2 h3
  have hb0 : bytesOf (b.map Atom.byte) = b := bytesOf_map b
  have hb : ∀ x : Atom, (∀ c, x ≠ .byte c) → bytesOf (b.map Atom.byte ++ [x]) = b := by
    intro x hx
    rw [bytesOf_append, hb0]
    cases x <;> simp [bytesOf] at hx ⊢
  cases h1 with
  | full hlen =>
    simp only [Prod.mk.injEq] at h
    obtain ⟨rfl, rfl⟩ := h
    refine ⟨?_, nofun⟩
    intro d hd
    cases hd
    exact ⟨b.map .byte, ⟨⟨rfl, by rw [hb0]; exact h2, by rw [hb0]; exact h3⟩, quiet_map b⟩, by rw [hb0], by simp; omega⟩
  | eof hlen =>
    simp only [Prod.mk.injEq] at h
    obtain ⟨rfl, rfl⟩ := h
    refine ⟨nofun, ?_⟩
    intro p' e he
    cases he
    have := hb .eof (by simp)
    exact ⟨b.map .byte ++ [.eof], ⟨by simp, by rw [this]; exact h2, by rw [this]; exact h3⟩, rfl, by rw [this],
      by simp; omega⟩
  | err e0 hlen =>
    simp only [Prod.mk.injEq] at h
    obtain ⟨rfl, rfl⟩ := h
    refine ⟨nofun, ?_⟩
    intro p' e he
    cases he
    have := hb (.err e0) (by simp)
    exact ⟨b.map .byte ++ [.err e0], ⟨by simp, by rw [this]; exact h2, by rw [this]; exact h3⟩, rfl, by rw [this],
      by simp; omega⟩
  | limit hlen =>
    simp only [Prod.mk.injEq] at h
    obtain ⟨rfl, rfl⟩ := h
    refine ⟨nofun, ?_⟩
    intro p' e he
    cases he
    exact ⟨b.map .byte, ⟨rfl, by rw [hb0]; exact h2, by rw [hb0]; exact h3⟩, rfl, by rw [hb0], by simp; omega⟩
  | out hlen h0 hnil =>
    simp only [Prod.mk.injEq] at h
    obtain ⟨rfl, rfl⟩ := h
    refine ⟨nofun, ?_⟩
    intro p' e he
    cases he
    exact ⟨b.map .byte, ⟨by simp [hnil], by rw [hb0]; exact h2, by rw [hb0]; exact h3⟩, rfl, by rw [hb0],
      by simp; omega⟩

theorem untilEof_run {d : Bytes} {a r : AR} {o : Out Bytes Bytes}
    (h : BytesUntilEofDeframer.parse d a = (o, r)) :
    (∀ b, o = .done b → ∃ pre, Consumed pre a r ∧ (∃ q, Quiet q ∧ pre = q ++ [.eof]) ∧ b = d ++ bytesOf pre ∧
      ∀ x ∈ a.lims, (bytesOf pre).length < x) ∧
    (∀ d' e, o = .io d' e → ∃ pre, Consumed pre a r ∧ d' = d ++ bytesOf pre) := by
  obtain ⟨ls, as⟩ := a
  rw [bytesUntilEof_eq] at h
  obtain ⟨pre, h1, h2, h3⟩ := drain_spec ls as
  revert h h1 h2 h3
  generalize AR.drain ls as = q
  obtain ⟨o', b, ls', as'⟩ := q
  simp only
  intro h h1 h2 h3
  have hb : ∀ x : Atom, (∀ c, x ≠ .byte c) → bytesOf (pre ++ [x]) = bytesOf pre := by
    intro x hx
    rw [bytesOf_append]
    cases x <;> simp [bytesOf] at hx ⊢
  cases h1 with
  | eof hq h0 =>
    simp only [Prod.mk.injEq] at h
    obtain ⟨rfl, rfl⟩ := h
    refine ⟨?_, nofun⟩
    intro x hx
    cases hx
    have := hb .eof (by simp)
    refine ⟨pre ++ [.eof], ⟨by simp, by rw [this]; exact h2, by rw [this]; exact h3⟩, ⟨pre, hq, rfl⟩, by rw [this], ?_⟩
    rw [this]
    rw [h2, zero_not_mem_decN] at h0
    exact h0
  | err e0 hq h0 hne =>
    simp only [Prod.mk.injEq] at h
    obtain ⟨rfl, rfl⟩ := h
    refine ⟨nofun, ?_⟩
    intro p' e he
    cases he
    have := hb (.err e0) (by simp)
    exact ⟨pre ++ [.err e0], ⟨by simp, by rw [this]; exact h2, by rw [this]; exact h3⟩, by rw [this]⟩
  | limit hq h0 =>
    simp only [Prod.mk.injEq] at h
    obtain ⟨rfl, rfl⟩ := h
    refine ⟨nofun, ?_⟩
    intro p' e he
    cases he
    exact ⟨pre, ⟨rfl, h2, h3⟩, rfl⟩
  | out hq h0 hnil =>
    simp only [Prod.mk.injEq] at h
    obtain ⟨rfl, rfl⟩ := h
    refine ⟨nofun, ?_⟩
    intro p' e he
    cases he
    exact ⟨_, ⟨by simp [hnil], h2, h3⟩, rfl⟩

/-! ### Chunks -/

/-- State of the chunks parser after consuming `c`. -/
inductive ChunkSt : ChunksParser → Bytes → Prop
  | size {cs : List (Bytes × Bytes)} {line : Bytes} : (∀ x ∈ cs, ChunkText x) → LineSt line →
      ChunkSt ⟨chunkData cs, .size line⟩ (chunkLines cs ++ line)
  | data {cs : List (Bytes × Bytes)} {s filled : Bytes} {n : Nat} : (∀ x ∈ cs, ChunkText x) → s.length ≤ 510 →
      UnsignedText 16 s n → n ≤ 3 * 1024 * 1024 → filled.length ≤ n →
      ChunkSt ⟨chunkData cs, .data ⟨n, filled⟩⟩ (chunkLines cs ++ s ++ CRLF ++ filled)
  | tailing {cs : List (Bytes × Bytes)} {s d line : Bytes} {l : Bool} : (∀ x ∈ cs, ChunkText x) → s.length ≤ 510 →
      UnsignedText 16 s d.length → d.length ≤ 3 * 1024 * 1024 → LineSt line → l = d.isEmpty →
      ChunkSt ⟨chunkData cs ++ d, .tailingCrlf line l⟩ (chunkLines cs ++ s ++ CRLF ++ d ++ line)
  | finished {c body : Bytes} : ChunkedText c body → ChunkSt ⟨body, .finished⟩ c

theorem parseChunkSize_ok {raw : Bytes} {n : Nat} (h : parseChunkSize raw = .ok n) :
    UnsignedText 16 raw n ∧ n ≤ 3 * 1024 * 1024 := by
  unfold parseChunkSize at h
  cases hp : parseUnsigned 16 usizeBound raw with
  | none => simp [hp] at h
  | some m =>
    simp only [hp] at h
    split at h
    · cases h
    · cases h
      rename_i hm
      exact ⟨((parseUnsigned_iff (by omega)).1 hp).1, by simp [maxBodySize] at hm; omega⟩

/-- Bytes held by the chunk parser: complete chunks and the current one. -/
def ChunksParser.held (p : ChunksParser) : Nat :=
  p.body.length + match p.state with
    | .data d => d.filled.length
    | _ => 0

theorem chunkStep_run {prof : Profile} {p : ChunksParser} {c : Bytes} (hp : ChunkSt p c) {a r : AR}
    (hfin : p.state ≠ .finished) {o : Out ChunksParser ChunksParser} (h : chunkStep prof p.body p.state a = (o, r)) :
    (∀ p', o = .done p' → ∃ pre, Taken pre a r ∧ ChunkSt p' (c ++ bytesOf pre) ∧
      p'.held ≤ p.held + (bytesOf pre).length) ∧
    (∀ p' e, o = .io p' e → e ≠ .unexpectedEof →
      ∃ pre kept dropped, Consumed pre a r ∧ bytesOf pre = kept ++ dropped ∧ Dropped dropped ∧
        ChunkSt p' (c ++ kept) ∧ LF ∉ dropped ∧ p'.held ≤ p.held + (bytesOf pre).length) := by
  cases hp with
  | finished => exact absurd rfl hfin
  | @size cs line hcs hl =>
    simp only [chunkStep, sizeState] at h
    cases hc : CrlfLineParser.parse prof line a with
    | mk o1 r1 =>
    simp only [hc, Prod.mk.injEq] at h
    obtain ⟨rfl, rfl⟩ := h
    obtain ⟨hd, hio⟩ := crlf_run hl hc
    cases o1 with
    | done raw =>
      obtain ⟨pre, hc1, hlt, he⟩ := hd raw rfl
      cases hs : parseChunkSize raw with
      | error e => simp only [Out.bind, hs]; exact ⟨nofun, nofun⟩
      | ok n =>
        simp only [Out.bind, hs]
        refine ⟨?_, nofun⟩
        intro p' hp'
        cases hp'
        obtain ⟨hu, hn⟩ := parseChunkSize_ok hs
        refine ⟨pre, hc1, ?_, by simp only [ChunksParser.held, List.length_nil]; omega⟩
        have := ChunkSt.data (filled := []) hcs hlt.short hu hn (by simp)
        rw [List.append_assoc, he]
        simpa using this
    | io line' e =>
      simp only [Out.bind]
      refine ⟨nofun, ?_⟩
      intro p' e' heq hne
      cases heq
      obtain ⟨pre, kept, dropped, hc1, hk, hdr, hl', hle, hlf⟩ := hio line' e rfl hne
      refine ⟨pre, kept, dropped, hc1, hk, hdr, ?_, hlf, by simp only [ChunksParser.held]; omega⟩
      rw [List.append_assoc, ← hle]
      exact .size hcs hl'
    | perr e => exact ⟨nofun, nofun⟩
    | panic => exact ⟨nofun, nofun⟩
    | diverge => exact ⟨nofun, nofun⟩
  | @data cs s filled n hcs hs hu hn hf =>
    simp only [chunkStep, dataState] at h
    cases hc : BytesDeframer.parse ⟨n, filled⟩ a with
    | mk o1 r1 =>
    simp only [hc, Prod.mk.injEq] at h
    obtain ⟨rfl, rfl⟩ := h
    obtain ⟨hd, hio⟩ := bytes_run (p := ⟨n, filled⟩) hf hc
    cases o1 with
    | done d =>
      obtain ⟨pre, hc1, hde, hlen⟩ := hd d rfl
      simp only [Out.bind]
      refine ⟨?_, nofun⟩
      intro p' hp'
      cases hp'
      refine ⟨pre, hc1, ?_, by simp only [ChunksParser.held, hde, List.length_append]; omega⟩
      simp only at hde hlen
      have := ChunkSt.tailing (s := s) (d := d) (line := []) hcs hs (hlen ▸ hu) (hlen ▸ hn) .nil rfl
      rw [List.append_assoc _ filled, ← hde]
      simpa using this
    | io p2 e =>
      simp only [Out.bind]
      refine ⟨nofun, ?_⟩
      intro p' e' heq hne
      cases heq
      obtain ⟨pre, hc1, h1, h2, h3⟩ := hio p2 e rfl
      obtain ⟨n', filled'⟩ := p2
      simp only at h1 h2 h3
      refine ⟨pre, bytesOf pre, [], hc1, by simp, .inl rfl, ?_, by simp, by simp only [ChunksParser.held, h2, List.length_append]; omega⟩
      rw [List.append_assoc _ filled, ← h2, h1]
      exact .data hcs hs hu hn h3
    | perr e => exact ⟨nofun, nofun⟩
    | panic => exact ⟨nofun, nofun⟩
    | diverge => exact ⟨nofun, nofun⟩
  | @tailing cs s d line l hcs hs hu hn hl hlast =>
    simp only [chunkStep, tailingCrlfState] at h
    cases hc : CrlfLineParser.parse prof line a with
    | mk o1 r1 =>
    simp only [hc, Prod.mk.injEq] at h
    obtain ⟨rfl, rfl⟩ := h
    obtain ⟨hd, hio⟩ := crlf_run hl hc
    cases o1 with
    | done raw =>
      obtain ⟨pre, hc1, hlt, he⟩ := hd raw rfl
      simp only [Out.bind]
      by_cases hr : raw = []
      · subst hr
        simp only [ne_eq, not_true_eq_false, if_false]
        cases hdd : d with
        | nil =>
          have hl1 : l = true := by rw [hlast, hdd]; rfl
          simp only [hl1, if_true]
          refine ⟨?_, nofun⟩
          intro p' hp'
          cases hp'
          refine ⟨pre, hc1, ?_, by simp only [ChunksParser.held]; omega⟩
          subst hdd
          rw [List.append_assoc _ line, he]
          simp only [List.append_nil, List.nil_append]
          exact .finished ⟨cs, s, hcs, hs, hu, rfl, rfl⟩
        | cons x t =>
          have hl1 : l = false := by rw [hlast, hdd]; rfl
          simp only [hl1, Bool.false_eq_true, if_false]
          refine ⟨?_, nofun⟩
          intro p' hp'
          cases hp'
          refine ⟨pre, hc1, ?_, by simp only [ChunksParser.held]; omega⟩
          have hcs' : ∀ y ∈ cs ++ [(s, d)], ChunkText y := by
            intro y hy
            simp only [List.mem_append, List.mem_singleton] at hy
            rcases hy with hy | rfl
            · exact hcs y hy
            · exact ⟨hs, hu, by simp [hdd], hn⟩
          have := ChunkSt.size (line := []) hcs' .nil
          rw [List.append_assoc _ line, he, ← hdd]
          simpa [chunkData, chunkLines] using this
      · simp only [ne_eq, hr, not_false_eq_true, if_true]; exact ⟨nofun, nofun⟩
    | io line' e =>
      simp only [Out.bind]
      refine ⟨nofun, ?_⟩
      intro p' e' heq hne
      cases heq
      obtain ⟨pre, kept, dropped, hc1, hk, hdr, hl', hle, hlf⟩ := hio line' e rfl hne
      refine ⟨pre, kept, dropped, hc1, hk, hdr, ?_, hlf, by simp only [ChunksParser.held]; omega⟩
      rw [List.append_assoc _ line, ← hle]
      exact .tailing hcs hs hu hn hl' hlast
    | perr e => exact ⟨nofun, nofun⟩
    | panic => exact ⟨nofun, nofun⟩
    | diverge => exact ⟨nofun, nofun⟩

theorem crun_run {prof : Profile} {p : ChunksParser} {c : Bytes} (hp : ChunkSt p c) {a r : AR}
    {o : Out ChunksParser Bytes} (h : crun prof p a = (o, r)) :
    (∀ b, o = .done b → ∃ pre, Taken pre a r ∧ ChunkedText (c ++ bytesOf pre) b ∧
      b.length ≤ p.held + (bytesOf pre).length) ∧
    (∀ p' e, o = .io p' e → e ≠ .unexpectedEof →
      ∃ pre kept dropped, Consumed pre a r ∧ bytesOf pre = kept ++ dropped ∧ Dropped dropped ∧
        ChunkSt p' (c ++ kept) ∧ LF ∉ dropped ∧ p'.held ≤ p.held + (bytesOf pre).length) := by
  obtain ⟨n, hn⟩ : ∃ n, 3 * a.atoms.length + p.state.rank ≤ n := ⟨_, Nat.le_refl _⟩
  induction n using Nat.strongRecOn generalizing p c a with
  | _ n ih =>
    rw [crun_eq] at h
    by_cases hst : p.state = .finished
    · simp only [hst, if_true, Prod.mk.injEq] at h
      obtain ⟨rfl, rfl⟩ := h
      refine ⟨?_, nofun⟩
      intro b hb
      cases hb
      refine ⟨[], .refl _, ?_, by simp only [ChunksParser.held]; omega⟩
      cases hp with
      | finished hct => simpa [bytesOf] using hct
      | _ => cases hst
    · simp only [hst, if_false] at h
      have hprog := chunkStep_progress prof p.body p.state a hst
      cases hs : chunkStep prof p.body p.state a with
      | mk o1 r1 =>
      rw [hs] at h hprog
      obtain ⟨hd, hio⟩ := chunkStep_run hp hst hs
      cases o1 with
      | done p1 =>
        obtain ⟨pre1, hc1, hst1, hg1⟩ := hd p1 rfl
        have hlt := hprog.2.2 p1 rfl
        simp only at h hlt
        obtain ⟨h1, h2⟩ := ih _ (Nat.lt_of_lt_of_le hlt hn) hst1 h (Nat.le_refl _)
        constructor
        · intro b hb
          obtain ⟨pre, hc2, hct, hg2⟩ := h1 b hb
          exact ⟨pre1 ++ pre, hc1.trans hc2, by rw [bytesOf_append, ← List.append_assoc]; exact hct,
            by rw [bytesOf_append, List.length_append]; omega⟩
        · intro p' e ho hne
          obtain ⟨pre, kept, dropped, hc2, hk, hdr, hst', hlf, hg2⟩ := h2 p' e ho hne
          refine ⟨pre1 ++ pre, bytesOf pre1 ++ kept, dropped, hc1.toConsumed.trans hc2, ?_, hdr, ?_, hlf, by rw [bytesOf_append, List.length_append]; omega⟩
          · rw [bytesOf_append, hk, List.append_assoc]
          · rw [← List.append_assoc]; exact hst'
      | io p1 e =>
        simp only [Prod.mk.injEq] at h
        obtain ⟨rfl, rfl⟩ := h
        refine ⟨nofun, ?_⟩
        intro p' e' heq hne
        cases heq
        exact hio p1 e rfl hne
      | perr e =>
        simp only [Prod.mk.injEq] at h
        obtain ⟨rfl, rfl⟩ := h
        exact ⟨nofun, nofun⟩
      | panic =>
        simp only [Prod.mk.injEq] at h
        obtain ⟨rfl, rfl⟩ := h
        exact ⟨nofun, nofun⟩
      | diverge => exact absurd rfl hprog.1

/-! ### Any body -/

/-- State of the body parser after consuming `c` of a body. -/
inductive BodySt : Framing → BodyParser → Bytes → Prop
  | length {n : Nat} {filled : Bytes} : n ≤ 3 * 1024 * 1024 → filled.length ≤ n →
      (n = 3 * 1024 * 1024 → filled = []) →
      BodySt (.length n) (.withSize ⟨n, filled⟩) filled
  | untilEof {d : Bytes} : d.length ≤ 3 * 1024 * 1024 → BodySt .untilEof (.untilEof d) d
  | chunked {p : ChunksParser} {c : Bytes} : ChunkSt p c → BodySt .chunked (.chunked p) c
  | empty : BodySt .noBody .empty []

theorem Out.bind_done_eq {σ σ' τ : Type} {x : Out σ τ} {g : σ → σ'} {v : τ}
    (h : x.bind g Out.done = .done v) : x = .done v := by
  cases x <;> simp [Out.bind] at h ⊢; exact h

theorem Out.bind_io_eq {σ σ' τ : Type} {x : Out σ τ} {g : σ → σ'} {s' : σ'} {e : IoError}
    (h : x.bind g (Out.done : τ → Out σ' τ) = .io s' e) : ∃ s, x = .io s e ∧ s' = g s := by
  cases x with
  | io s0 e0 => simp only [Out.bind, Out.io.injEq] at h; exact ⟨s0, by rw [h.2], h.1.symm⟩
  | _ => simp [Out.bind] at h

/-- Bytes held by the body parser; for a sized body the whole size. -/
def BodyParser.held : BodyParser → Nat
  | .withSize p => p.size
  | .untilEof d => d.length
  | .chunked p => p.held
  | .empty => 0

/-- What was consumed, depending on whether the end of stream was reached. -/
def Ends (ended : Bool) (pre : List Atom) : Prop :=
  if ended then ∃ q, Quiet q ∧ pre = q ++ [.eof] else Quiet pre

theorem body_run {prof : Profile} {f : Framing} {p : BodyParser} {c : Bytes} (hp : BodySt f p c) {a r : AR}
    {o : Out BodyParser Bytes} (h : BodyParser.parse prof p a = (o, r)) :
    (∀ b, o = .done b → ∃ pre, Consumed pre a r ∧ Ends (decide (f = .untilEof)) pre ∧ BodyText f (c ++ bytesOf pre) b ∧
      (∀ lim, prof.sub maxBodySize p.readSoFar = some lim → (bytesOf pre).length ≤ lim ∧
        (f = .untilEof → (bytesOf pre).length < lim)) ∧ (f ≠ .chunked → b.length ≤ 3 * 1024 * 1024) ∧
      (prof.overflowChecks = true → b.length ≤ 6 * 1024 * 1024) ∧ (∀ n, f = .length n → n < 3 * 1024 * 1024)) ∧
    (∀ p' e, o = .io p' e → e ≠ .unexpectedEof →
      ∃ pre kept dropped, Consumed pre a r ∧ bytesOf pre = kept ++ dropped ∧ Dropped dropped ∧
        BodySt f p' (c ++ kept) ∧ LF ∉ dropped ∧ (prof.overflowChecks = true → p'.held ≤ 6 * 1024 * 1024)) := by
  obtain ⟨ls, as⟩ := a
  rw [bodyParse_eq] at h
  cases hlim : prof.sub maxBodySize p.readSoFar with
  | none =>
    simp only [hlim, Prod.mk.injEq] at h
    obtain ⟨rfl, rfl⟩ := h
    exact ⟨nofun, nofun⟩
  | some lim =>
    simp only [hlim] at h
    cases hp with
    | @length n filled hn hf hz =>
      simp only [Prod.mk.injEq] at h
      obtain ⟨rfl, rfl⟩ := h
      obtain ⟨h1, h2⟩ := bytes_run (p := ⟨n, c⟩) hf (a := ⟨lim :: ls, as⟩) rfl
      have hle : lim = maxBodySize - n := by
        rw [sub_le prof (by simpa [BodyParser.readSoFar, maxBodySize] using hn)] at hlim
        cases hlim; rfl
      constructor
      · intro b hb
        obtain ⟨pre, hc, hde, hlen⟩ := h1 b (Out.bind_done_eq hb)
        refine ⟨pre, hc.pop.1.toConsumed, hc.quiet, ⟨hde.symm, hlen⟩, ?_, fun _ => by simp only at hlen; omega,
          fun _ => by simp only at hlen; omega, ?_⟩
        · intro lim' hl'
          cases hl'
          exact ⟨hc.pop.2, nofun⟩
        · intro n' hn'
          cases hn'
          have := hc.pop.2
          rcases Nat.lt_or_ge n (3 * 1024 * 1024) with h | h
          · exact h
          · have hn3 : n = 3 * 1024 * 1024 := by omega
            have hl0 := congrArg List.length hde
            rw [hz hn3] at hl0
            simp only [List.nil_append, maxBodySize] at hl0 hle hlen
            omega
      · intro p' e ho hne
        obtain ⟨s, hs, rfl⟩ := Out.bind_io_eq ho
        obtain ⟨pre, hc, e1, e2, e3⟩ := h2 s e hs
        obtain ⟨n', filled'⟩ := s
        simp only at e1 e2 e3
        refine ⟨pre, bytesOf pre, [], hc.pop.1, by simp, .inl rfl, ?_, by simp, fun _ => by simp only [BodyParser.held]; omega⟩
        rw [e1, ← e2]
        refine .length hn e3 ?_
        intro hn3
        have := hc.pop.2
        have hl0 : (bytesOf pre).length = 0 := by simp only [maxBodySize] at hle; omega
        rw [e2, hz hn3, List.length_eq_zero_iff.1 hl0]; rfl
    | untilEof hd =>
      simp only [Prod.mk.injEq] at h
      obtain ⟨rfl, rfl⟩ := h
      obtain ⟨h1, h2⟩ := untilEof_run (d := c) (a := ⟨lim :: ls, as⟩) rfl
      have hle : lim = maxBodySize - c.length := by
        rw [sub_le prof (by simpa [BodyParser.readSoFar, maxBodySize] using hd)] at hlim
        cases hlim; rfl
      constructor
      · intro b hb
        obtain ⟨pre, hc, hends, hde, hlt⟩ := h1 b (Out.bind_done_eq hb)
        refine ⟨pre, hc.pop.1, hends, hde.symm, ?_, ?_, ?_, nofun⟩
        · intro lim' hl'
          cases hl'
          exact ⟨hc.pop.2, fun _ => hlt lim (by simp)⟩
        · intro _
          have := hc.pop.2
          rw [hde, List.length_append]; simp only [maxBodySize] at hle; omega
        · intro _
          have := hc.pop.2
          rw [hde, List.length_append]; simp only [maxBodySize] at hle; omega
      · intro p' e ho hne
        obtain ⟨s, hs, rfl⟩ := Out.bind_io_eq ho
        obtain ⟨pre, hc, e1⟩ := h2 s e hs
        refine ⟨pre, bytesOf pre, [], hc.pop.1, by simp, .inl rfl, ?_, by simp, fun _ => by
          have := hc.pop.2
          simp only [BodyParser.held, e1, List.length_append]; simp only [maxBodySize] at hle; omega⟩
        rw [e1]
        have := hc.pop.2
        exact .untilEof (by rw [List.length_append]; simp only [maxBodySize] at hle; omega)
    | @chunked p c hst =>
      simp only [Prod.mk.injEq] at h
      obtain ⟨rfl, rfl⟩ := h
      obtain ⟨h1, h2⟩ := crun_run hst (prof := prof) (a := ⟨lim :: ls, as⟩) rfl
      have hsix : prof.overflowChecks = true → lim + p.held ≤ 6 * 1024 * 1024 := by
        intro hchk
        have h2 : lim + p.body.length = 3 * 1024 * 1024 := by
          simp only [Profile.sub, hchk, BodyParser.readSoFar, maxBodySize] at hlim
          split at hlim
          · cases hlim; omega
          · simp at hlim
        have h3 : p.held ≤ p.body.length + 3 * 1024 * 1024 := by
          cases hst <;> simp only [ChunksParser.held] <;> omega
        omega
      constructor
      · intro b hb
        obtain ⟨pre, hc, hct, hg⟩ := h1 b (Out.bind_done_eq hb)
        refine ⟨pre, hc.pop.1.toConsumed, hc.quiet, hct, ?_, fun h => absurd rfl h, ?_, nofun⟩
        · intro lim' hl'
          cases hl'
          exact ⟨hc.pop.2, nofun⟩
        · intro hchk
          have h1 := hc.pop.2
          have := hsix hchk
          omega
      · intro p' e ho hne
        obtain ⟨s, hs, rfl⟩ := Out.bind_io_eq ho
        obtain ⟨pre, kept, dropped, hc, hk, hdr, hst', hlf, hg⟩ := h2 s e hs hne
        exact ⟨pre, kept, dropped, hc.pop.1, hk, hdr, .chunked hst', hlf, fun h => by have := hsix h; have := hc.pop.2; simp only [BodyParser.held]; omega⟩
    | empty =>
      simp only [Prod.mk.injEq] at h
      obtain ⟨rfl, rfl⟩ := h
      refine ⟨?_, nofun⟩
      intro b hb
      cases hb
      exact ⟨[], .refl _, quiet_nil, ⟨rfl, rfl⟩, fun lim' _ => ⟨by simp [bytesOf], nofun⟩, by simp, by simp, nofun⟩

end Verif
