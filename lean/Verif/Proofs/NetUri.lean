import Verif.Proofs.NetRun
import Verif.Proofs.Text
import Verif.Proofs.Utf8

/-! The URIs of the requests that a server reads are text. -/

namespace Verif

variable {σ : Type} {prof : Profile} {rt : Router σ}

/-- What the parser has of the URI is text. -/
def UriOk : RequestParser → Prop
  | .firstLine line => utf8Valid line = true
  | .headers t _ => utf8Valid t.2 = true
  | .body t _ _ => utf8Valid t.2 = true
  | .finished t _ _ => utf8Valid t.2 = true

section
variable {R : Type} [Reader R]

theorem readLine_utf8 {line : Bytes} (hl : utf8Valid line = true) (r : R) : utf8Valid (readLine line r).2.1 = true := by
  unfold readLine
  split
  next o b r' hr =>
    by_cases hb : utf8Valid b = true
    · simp only [hb, if_true]
      rw [utf8_append hl]; exact hb
    · simp only [hb]
      cases o <;> exact hl

theorem crlf_utf8 {line : Bytes} (hl : utf8Valid line = true) {r r' : R} {o : Out Bytes Bytes} (h : CrlfLineParser.parse prof line r = (o, r')) :
    (∀ l, o = .done l → utf8Valid l = true) ∧ ∀ l, o = .io l .wouldBlock → utf8Valid l = true := by
  unfold CrlfLineParser.parse at h
  split at h
  · cases h; exact ⟨nofun, nofun⟩
  next lim _ =>
  have h1 := readLine_utf8 hl (Reader.push lim r)
  unfold LineDeframer.parse at h
  revert h h1
  generalize readLine line (Reader.push lim r) = x
  obtain ⟨o', line', r1⟩ := x
  intro h h1
  dsimp only at h h1
  cases o' with
  | ok =>
    dsimp only at h
    cases hp : popChar line' with
    | none => rw [hp] at h; dsimp only at h; cases h; exact ⟨by simp, by simp⟩
    | some p =>
      obtain ⟨rest, c⟩ := p
      rw [hp] at h
      dsimp only at h
      by_cases hc : c = [LF]
      · rw [if_pos hc] at h
        have h2 := popChar_append hp
        rw [h2, hc] at h1
        rw [utf8_snoc_ascii (by decide)] at h1
        cases h
        unfold parseCrlfLine
        cases hq : popChar rest with
        | none => exact ⟨nofun, nofun⟩
        | some p2 =>
          obtain ⟨rest2, c2⟩ := p2
          dsimp only
          by_cases hc2 : c2 = [CR]
          · rw [if_pos hc2]
            have h3 := popChar_append hq
            rw [h3, hc2, utf8_snoc_ascii (by decide)] at h1
            refine ⟨?_, nofun⟩
            intro l hl; cases hl; exact h1
          · rw [if_neg hc2]; exact ⟨nofun, nofun⟩
      · rw [if_neg hc] at h; cases h; exact ⟨by simp, by simp⟩
  | err e =>
    dsimp only at h
    cases h
    refine ⟨?_, ?_⟩
    · intro l hl; split at hl <;> cases hl
    · intro l hl
      split at hl
      · cases hl
      · cases hl; exact h1
  | diverge => dsimp only at h; cases h; exact ⟨nofun, nofun⟩

theorem requestLine_utf8 {line : Bytes} (hl : utf8Valid line = true) {t : Method × Bytes} (h : parseRequestLine line = .ok t) :
    utf8Valid t.2 = true := by
  unfold parseRequestLine at h
  have hf := splitByte_fields line
  split at h
  · next m uri v rest he =>
    rw [he] at hf
    split at h
    · cases h
    · split at h
      · cases h
        cases hf with
        | more h1 h2 =>
          cases h2 with
          | more h3 h4 =>
            rw [utf8_mid_ascii (by decide), utf8_mid_ascii (by decide)] at hl
            simp only [Bool.and_eq_true] at hl
            exact hl.2.1
      · cases h
  · cases h

theorem loop_uri {f : Nat} {p : RequestParser} (hp : UriOk p) {r r' : R} {o : Out RequestParser ((Method × Bytes) × HeaderMap × Bytes)}
    (h : MessageParser.loop prof parseRequestLine false f p r = (o, r')) :
    (∀ t hs b, o = .done (t, hs, b) → utf8Valid t.2 = true) ∧ ∀ p', o = .io p' .wouldBlock → UriOk p' := by
  induction f generalizing p r with
  | zero => cases h; exact ⟨nofun, nofun⟩
  | succ f ih =>
    unfold MessageParser.loop at h
    cases p with
    | finished t hs b => cases h; refine ⟨?_, nofun⟩; intro t hs b h; cases h; exact hp
    | firstLine line =>
      dsimp only at h
      unfold firstLineState at h
      cases hx : CrlfLineParser.parse prof line r with
      | mk x r1 =>
      obtain ⟨h1, h2⟩ := crlf_utf8 hp hx
      rw [hx] at h
      cases x with
      | done l =>
        simp only [Out.bind] at h
        cases hl : parseRequestLine l with
        | ok t => rw [hl] at h; exact ih (show UriOk (.headers t .new) from requestLine_utf8 (h1 l rfl) hl) h
        | error e => rw [hl] at h; cases h; exact ⟨nofun, nofun⟩
      | io l e =>
        simp only [Out.bind] at h
        cases h
        refine ⟨nofun, ?_⟩
        intro p' h; cases h; exact h2 l rfl
      | _ => simp only [Out.bind] at h; cases h; exact ⟨nofun, nofun⟩
    | headers t q =>
      dsimp only at h
      unfold headersState at h
      cases hx : HeadersParser.parse prof q r with
      | mk x r1 =>
      rw [hx] at h
      cases x with
      | done hs =>
        simp only [Out.bind] at h
        cases hl : BodyParser.new hs false with
        | ok bp => rw [hl] at h; exact ih (show UriOk (.body t hs bp) from hp) h
        | error e => rw [hl] at h; cases h; exact ⟨nofun, nofun⟩
      | io l e =>
        simp only [Out.bind] at h
        cases h
        refine ⟨nofun, ?_⟩
        intro p' h; cases h; exact hp
      | _ => simp only [Out.bind] at h; cases h; exact ⟨nofun, nofun⟩
    | body t hs q =>
      dsimp only at h
      unfold bodyState at h
      cases hx : BodyParser.parse prof q r with
      | mk x r1 =>
      rw [hx] at h
      cases x with
      | done b =>
        simp only [Out.bind] at h
        exact ih (show UriOk (.finished t hs b) from hp) h
      | io l e =>
        simp only [Out.bind] at h
        cases h
        refine ⟨nofun, ?_⟩
        intro p' h; cases h; exact hp
      | _ => simp only [Out.bind] at h; cases h; exact ⟨nofun, nofun⟩

theorem parse_uri {p : RequestParser} (hp : UriOk p) {r r' : R} {o : Out RequestParser Request} (h : RequestParser.parse prof p r = (o, r')) :
    (∀ q, o = .done q → utf8Valid q.uri = true) ∧ ∀ p', o = .io p' .wouldBlock → UriOk p' := by
  unfold RequestParser.parse at h
  cases hx : MessageParser.loop prof parseRequestLine false 5 p r with
  | mk x r1 =>
  obtain ⟨h1, h2⟩ := loop_uri hp hx
  rw [hx] at h
  cases x with
  | done y =>
    obtain ⟨⟨m, u⟩, hs, b⟩ := y
    simp only [Out.bind] at h
    cases h
    refine ⟨?_, nofun⟩
    intro q h; cases h; exact h1 _ _ _ rfl
  | io l e =>
    simp only [Out.bind] at h
    cases h
    refine ⟨nofun, ?_⟩
    intro p' h; cases h; exact h2 l rfl
  | _ => simp only [Out.bind] at h; cases h; exact ⟨nofun, nofun⟩

end

theorem readRequest_uri {c c' : Conn Rd Nbw} (hc : UriOk (c.parser.getD .new)) {x : ReadRequestResult} (h : c.readRequest prof = (x, c')) :
    (∀ q, x = .ready q → utf8Valid q.uri = true) ∧ UriOk (c'.parser.getD .new) := by
  unfold Conn.readRequest at h
  cases hp : RequestParser.parse prof (c.parser.getD .new) c.reader with
  | mk o r =>
  obtain ⟨h1, h2⟩ := parse_uri hc hp
  rw [hp] at h
  have new : UriOk .new := rfl
  cases o with
  | done q => cases h; exact ⟨fun q h => by cases h; exact h1 _ rfl, new⟩
  | io p e =>
    dsimp only at h
    split at h
    · next he => subst he; cases h; exact ⟨nofun, h2 p rfl⟩
    · split at h <;> cases h <;> exact ⟨nofun, new⟩
  | _ => cases h; exact ⟨nofun, new⟩

structure Net.UrisOk (s : Net σ) : Prop where
  conn : ∀ (k : Nat) c conn, s.conns[k]? = some c → c.slot = .live conn → UriOk (conn.parser.getD .new)
  phase : ∀ w q, s.phase w = .asked q → utf8Valid q.uri = true
  asks : ∀ a ∈ s.asks, utf8Valid a.2.1.uri = true

theorem Move.uri {p p' : Phase} {x x' : Slot Rd Nbw} {a d d' : Nat} (h : Move prof p x a d p' x' d')
    (hx : ∀ conn, x = .live conn → UriOk (conn.parser.getD .new)) :
    (∀ conn, x' = .live conn → UriOk (conn.parser.getD .new)) ∧ ∀ q, p' = .asked q → utf8Valid q.uri = true := by
  cases h with
  | flushOk =>
    have := hx _ rfl
    exact ⟨fun conn h => by cases h; exact this, nofun⟩
  | ready h =>
    have := readRequest_uri (hx _ rfl) h
    exact ⟨fun conn h => by cases h; exact this.2, fun q h => by cases h; exact this.1 _ rfl⟩
  | notReady h =>
    have := readRequest_uri (hx _ rfl) h
    exact ⟨fun conn h => by cases h; exact this.2, nofun⟩
  | wrote =>
    have := hx _ rfl
    exact ⟨fun conn h => by cases h; exact this, nofun⟩
  | _ => exact ⟨nofun, nofun⟩

theorem uri_step {s s' : Net σ} (hi : s.UrisOk) (h : NStep prof rt s s') : s'.UrisOk := by
  have slots : ∀ {k : Nat} {c c' : NConn σ}, s.conns[k]? = some c → s'.conns = (s.setConn k c').conns →
      (∀ conn, c'.slot = .live conn → UriOk (conn.parser.getD .new)) →
      ∀ (k : Nat) c conn, s'.conns[k]? = some c → c.slot = .live conn → UriOk (conn.parser.getD .new) := by
    intro k c c' hc he hp k' d conn hd hs
    rw [he] at hd
    rcases setConn_get hc hd with ⟨rfl, rfl⟩ | ⟨-, hd⟩
    · exact hp conn hs
    · exact hi.conn k' d conn hd hs
  have phases : ∀ {w : Nat} {p : Phase}, (∀ q, p = .asked q → utf8Valid q.uri = true) →
      ∀ w' q, (if w' = w then p else s.phase w') = .asked q → utf8Valid q.uri = true := by
    intro w p hp w' q h
    split at h
    · exact hp q h
    · exact hi.phase w' q h
  cases h with
  | accept =>
    refine ⟨?_, hi.phase, hi.asks⟩
    intro k c conn hk hs
    dsimp only at hk
    rw [List.getElem?_append] at hk
    split at hk
    · exact hi.conn k c conn hk hs
    · cases hd : k - s.conns.length with
      | zero => rw [hd] at hk; cases hk; cases hs; rfl
      | succ m => rw [hd] at hk; cases hk
  | @arrive k ev c cn hc hl =>
    refine ⟨slots hc rfl ?_, hi.phase, hi.asks⟩
    intro conn hs
    rw [hl] at hs
    simp only [Net.receive] at hs
    cases hs
    exact hi.conn k c cn hc hl
  | notify hc => exact ⟨slots hc rfl fun conn hs => hi.conn _ _ conn hc hs, hi.phase, hi.asks⟩
  | @poll ks =>
    refine ⟨?_, hi.phase, hi.asks⟩
    intro k c conn hk hs
    dsimp only at hk
    rw [List.getElem?_mapIdx, Option.map_eq_some_iff] at hk
    obtain ⟨d, hd, rfl⟩ := hk
    refine hi.conn k d conn hd ?_
    split at hs <;> exact hs
  | skip => exact ⟨hi.conn, hi.phase, hi.asks⟩
  | remove hc => exact ⟨slots hc rfl fun conn hs => hi.conn _ _ conn hc hs, hi.phase, hi.asks⟩
  | execute => exact ⟨hi.conn, hi.phase, hi.asks⟩
  | fail => exact ⟨hi.conn, hi.phase, hi.asks⟩
  | work => exact ⟨hi.conn, phases nofun, hi.asks⟩
  | enterPoisoned hk hc hph hl hs hp => exact ⟨slots hc rfl fun conn hs => hi.conn _ _ conn hc hs, hi.phase, hi.asks⟩
  | enterGone hk hc hph hl hs => exact ⟨slots hc rfl fun conn hs => hi.conn _ _ conn hc hs, phases nofun, hi.asks⟩
  | enter hk hc hph hl hs =>
    have := hi.conn _ _ _ hc hs
    refine ⟨slots hc rfl fun conn hs' => ?_, phases nofun, hi.asks⟩
    rw [hs] at hs'
    cases hs'
    exact this
  | @go w k c s' hk hc hl ha =>
    cases ha with
    | move hm =>
      obtain ⟨h1, h2⟩ := hm.uri fun conn hs => hi.conn _ _ conn hc hs
      exact ⟨slots hc rfl h1, phases h2, hi.asks⟩
    | ask hph hs =>
      refine ⟨slots hc rfl fun conn hs => hi.conn _ _ conn hc hs, phases nofun, ?_⟩
      intro a ha
      rcases List.mem_append.1 ha with ha | ha
      · exact hi.asks a ha
      · cases List.mem_singleton.1 ha; exact hi.phase _ _ hph
    | crash hph hs hr hp => exact ⟨slots hc rfl nofun, hi.phase, hi.asks⟩
    | crashAsk hph hs hr hp =>
      refine ⟨slots hc rfl nofun, hi.phase, ?_⟩
      intro a ha
      rcases List.mem_append.1 ha with ha | ha
      · exact hi.asks a ha
      · cases List.mem_singleton.1 ha; exact hi.phase _ _ hph
    | leave hph hp => exact ⟨slots hc rfl fun conn hs => hi.conn _ _ conn hc hs, phases nofun, hi.asks⟩

theorem Net.Reach.urisOk {n : Nat} {s₀ : σ} {s : Net σ} (h : Net.Reach prof rt n s₀ s) : s.UrisOk := by
  induction h with
  | new h =>
    unfold Net.new at h
    simp only [Option.map_eq_some_iff] at h
    obtain ⟨p, h1, rfl⟩ := h
    exact ⟨by simp, by simp, by simp⟩
  | step hr hs ih => exact uri_step ih (step_nstep hs)

end Verif
