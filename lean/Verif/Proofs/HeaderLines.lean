import Verif.Proofs.CutOff

/-!
A header section in which one line is repeated.
-/

namespace Verif

variable {prof : Profile}

theorem scan_limit (d : UInt8) {bs : Bytes} {l : Nat} (h : d ∉ bs.take l) {ls : List Nat} (hl : ∀ x ∈ ls, l ≤ x) (hm : l ∈ ls) (hlen : l ≤ bs.length) (X : List Atom) :
    AR.scan d ls (bs.map .byte ++ X) = (.err .limitReached, bs.take l, ls.map (· - l), (bs.drop l).map .byte ++ X) := by
  have hs : bs.map Atom.byte ++ X = (bs.take l).map .byte ++ ((bs.drop l).map .byte ++ X) := by
    rw [← List.append_assoc, ← List.map_append, List.take_append_drop]
  have ht : (bs.take l).length = l := by rw [List.length_take]; omega
  rw [hs, scan_bytes d _ ls _ h (by rw [ht]; exact hl), ht, scan_zero d (List.mem_map.2 ⟨l, hm, by omega⟩)]
  simp

theorem scan_pause (d : UInt8) {bs : Bytes} (h : d ∉ bs) {ls : List Nat} (hl : ∀ x ∈ ls, bs.length < x) {Y : List Atom} (hY : Y = [] ∨ ∃ post, Y = WB :: post) :
    AR.scan d ls (bs.map .byte ++ Y) = (.err .wouldBlock, bs, ls.map (· - bs.length), Y.tail) := by
  have h0 : 0 ∉ ls.map (· - bs.length) := by
    intro h0
    obtain ⟨x, hx, h0⟩ := List.mem_map.1 h0
    have := hl x hx
    omega
  rw [scan_bytes d _ ls _ h fun x hx => Nat.le_of_lt (hl x hx)]
  rcases hY with rfl | ⟨post, rfl⟩
  · rw [scan_nil d h0]; simp
  · rw [WB, scan_err d (by simp) h0]; simp

theorem scan_found (d : UInt8) {u : Bytes} (h : d ∉ u) {ls : List Nat} (hl : ∀ x ∈ ls, u.length < x) (Y : List Atom) :
    AR.scan d ls ((u ++ [d]).map .byte ++ Y) = (.ok, u ++ [d], ls.map (· - (u.length + 1)), Y) := by
  have h0 : 0 ∉ ls.map (· - u.length) := by
    intro h0
    obtain ⟨x, hx, h0⟩ := List.mem_map.1 h0
    have := hl x hx
    omega
  rw [List.map_append, List.append_assoc, scan_bytes d _ ls _ h fun x hx => Nat.le_of_lt (hl x hx)]
  simp only [List.map_cons, List.map_nil, List.cons_append, List.nil_append]
  rw [scan_delim d h0]
  simp [decN, Nat.sub_sub]

/-- A field line, without its end, of ASCII characters. -/
structure SectionLine (ln : Bytes) : Prop where
  text : OneLine ln
  pos : 0 < ln.length
  short : ln.length ≤ 510
  field : ∃ hv, parseHeader ln = .ok hv

/-- The line with its end. -/
abbrev ended (ln : Bytes) : Bytes := ln ++ CRLF

theorem ended_length (ln : Bytes) : (ended ln).length = ln.length + 2 := by simp [ended, CRLF]

theorem SectionLine.rest {ln i u : Bytes} (h : OneLine ln) (e : i ++ u = ended ln) (hu : u ≠ []) : ∃ u₀, u = u₀ ++ [LF] ∧ i ++ u₀ = ln ++ [CR] ∧ (∀ c ∈ i ++ u₀, c < 128 ∧ c ≠ LF) := by
  obtain ⟨u₀, x, rfl⟩ : ∃ u₀ x, u = u₀ ++ [x] := ⟨_, _, (List.dropLast_concat_getLast hu).symm⟩
  rw [ended, show CRLF = [CR] ++ [LF] from rfl, ← List.append_assoc, ← List.append_assoc] at e
  obtain ⟨e₁, e'⟩ := List.append_inj' e rfl
  cases e'
  clear e
  have e := e₁
  refine ⟨u₀, rfl, e, ?_⟩
  rw [e]
  intro c hc
  rcases List.mem_append.1 hc with hc | hc
  · exact h c hc
  · rw [List.mem_singleton.1 hc]; decide

theorem again_succ (k : Nat) (b : Bytes) : again (k + 1) b = b ++ again k b := by simp [again, List.replicate_succ]

theorem again_grows (k : Nat) (b : Bytes) : again k b <+: b ++ again k b := by
  rw [← again_succ, again_add]
  exact List.prefix_append _ _

/-- The end of a line is reached, within the limit. -/
theorem crlf_found {ln i u : Bytes} (h : OneLine ln) (hs : ln.length ≤ 510) (e : i ++ u = ended ln) (hu : u ≠ []) {lim : List Nat} (hl : ∀ x ∈ lim, u.length ≤ x) (Y : List Atom) :
    CrlfLineParser.parse prof i (⟨lim, u.map .byte ++ Y⟩ : AR) = (.done ln, ⟨lim.map (· - u.length), Y⟩) := by
  have hlen := congrArg List.length e
  rw [List.length_append, ended_length] at hlen
  obtain ⟨u₀, rfl, e', ha⟩ := SectionLine.rest h e hu
  rw [List.length_append, List.length_singleton] at hlen
  rw [crlf_eq prof i _ (sub_le prof (show i.length ≤ maxLineSize by rw [show maxLineSize = 512 from rfl]; omega)), scan_found LF (fun hm => (ha LF (by simp [hm])).2 rfl) (by
    intro x hx
    rcases List.mem_cons.1 hx with rfl | hx
    · rw [show maxLineSize = 512 from rfl]; omega
    · have := hl x hx
      rw [List.length_append, List.length_singleton] at this
      omega)]
  simp only [List.map_cons, List.tail_cons, List.length_append, List.length_singleton]
  rw [crlfOut_found, utf8_ascii fun c hc => (ha c (by simp [hc])).1, e', parseCrlfLine, popChar_snoc_ascii (by decide)]
  simp [Out.ofExcept]

/-- It is not reached within what there is. -/
theorem crlf_paused {i bs : Bytes} (hb : OneLine bs) (hlen : i.length + bs.length < 512) {lim : List Nat} (hl : ∀ x ∈ lim, bs.length < x) {Y : List Atom} (hY : Y = [] ∨ ∃ post, Y = WB :: post) :
    CrlfLineParser.parse prof i (⟨lim, bs.map .byte ++ Y⟩ : AR) = (.io (i ++ bs) .wouldBlock, ⟨lim.map (· - bs.length), Y.tail⟩) := by
  rw [crlf_eq prof i _ (sub_le prof (show i.length ≤ maxLineSize by rw [show maxLineSize = 512 from rfl]; omega)), scan_pause LF hb.noLf (by
    intro x hx
    rcases List.mem_cons.1 hx with rfl | hx
    · rw [show maxLineSize = 512 from rfl]; omega
    · exact hl x hx) hY]
  simp [crlfOut, hb.ascii]

/-- It is not reached within the limit. -/
theorem crlf_limited {i bs : Bytes} {l : Nat} (hb : OneLine (bs.take l)) (hlen : i.length + l ≤ 512) (hl : l ≤ bs.length) (Y : List Atom) :
    CrlfLineParser.parse prof i (⟨[l], bs.map .byte ++ Y⟩ : AR) = (.io (i ++ bs.take l) .limitReached, ⟨[0], (bs.drop l).map .byte ++ Y⟩) := by
  rw [crlf_eq prof i _ (sub_le prof (show i.length ≤ maxLineSize by rw [show maxLineSize = 512 from rfl]; omega)), scan_limit LF hb.noLf (l := l) (by
    intro x hx
    rcases List.mem_cons.1 hx with rfl | hx
    · rw [show maxLineSize = 512 from rfl]; omega
    · rw [List.mem_singleton.1 hx]; exact Nat.le_refl _) (by simp) hl]
  simp [crlfOut, hb.ascii]

/-- One call on a section that consists of one line again and again, `i` being what the parser has of such a line. -/
theorem lines_call {ln : Bytes} (hf : SectionLine ln) {K : Nat} (k : Nat) : ∀ {bs i u : Bytes} {hs : HeaderMap} {rd lim : Nat} {Y : List Atom}, bs.length ≤ k → i ++ u = ended ln → u ≠ [] →
    bs <+: u ++ again K (ended ln) →
    (lim ≤ bs.length → ∃ p x rest, hrun prof ⟨i, hs, rd⟩ ⟨[lim], bs.map .byte ++ Y⟩ = (.io p .limitReached, ⟨[x], rest⟩)) ∧
    (bs.length < lim → (Y = [] ∨ ∃ post, Y = WB :: post) → ∃ m i' u' hs' x, i' ++ u' = ended ln ∧ u' ≠ [] ∧ i ++ bs = again m (ended ln) ++ i' ∧
      hrun prof ⟨i, hs, rd⟩ ⟨[lim], bs.map .byte ++ Y⟩ = (.io ⟨i', hs', rd + ln.length * m⟩ .wouldBlock, ⟨[x], Y.tail⟩)) := by
  induction k using Nat.strongRecOn with
  | ind k ih =>
  intro bs i u hs rd lim Y hk e hu hp
  have hlen := congrArg List.length e
  rw [List.length_append, ended_length] at hlen
  have hshort := hf.short
  have hupos := List.length_pos_iff.2 hu
  obtain ⟨u₀, hu₀, e', ha⟩ := SectionLine.rest hf.text e hu
  have hul : u.length = u₀.length + 1 := by rw [hu₀]; simp
  -- less than the rest of the line has no line feed
  have part : ∀ x : Bytes, x <+: u → x.length < u.length → OneLine x := by
    intro x hx hlt c hc
    have : x <+: u₀ := by
      refine List.prefix_of_prefix_length_le (hx.trans (show u <+: u₀ ++ [LF] by rw [hu₀]; exact List.prefix_refl _)) (List.prefix_append _ _) ?_
      omega
    exact ha c (by simp [this.subset hc])
  by_cases hd : u <+: bs ∧ u.length ≤ lim
  · -- the line is complete
    obtain ⟨⟨bs', rfl⟩, hul'⟩ := hd
    obtain ⟨⟨hh, hv⟩, hfield⟩ := hf.field
    have hne : ln ≠ [] := List.length_pos_iff.1 hf.pos
    have step : ∀ Y, hrun prof ⟨i, hs, rd⟩ ⟨[lim], (u ++ bs').map .byte ++ Y⟩ = hrun prof ⟨[], hs.addHeader hh hv, rd + ln.length⟩ ⟨[lim - u.length], bs'.map .byte ++ Y⟩ := by
      intro Y
      rw [hrun_eq]
      simp only [List.map_append, List.append_assoc]
      rw [crlf_found hf.text hf.short e hu (by intro x hx; rw [List.mem_singleton.1 hx]; exact hul')]
      simp [hne, hfield]
    have hp' : bs' <+: ended ln ++ again K (ended ln) := ((List.prefix_append_right_inj u).1 hp).trans (again_grows _ _)
    simp only [List.length_append] at hk
    obtain ⟨i1, i2⟩ := ih bs'.length (by omega) (bs := bs') (i := []) (u := ended ln) (hs := hs.addHeader hh hv) (rd := rd + ln.length) (lim := lim - u.length) (Y := Y) (Nat.le_refl _) rfl (by simp [ended, CRLF]) hp'
    simp only [List.length_append]
    rw [step]
    refine ⟨fun hlim => i1 (by omega), fun hlim hY => ?_⟩
    obtain ⟨m, i', u', hs', x, j1, j2, j3, j4⟩ := i2 (by omega) hY
    refine ⟨m + 1, i', u', hs', x, j1, j2, ?_, ?_⟩
    · rw [← List.append_assoc i, e, again_succ, List.append_assoc (ended ln), ← j3]; rfl
    · rw [j4, show rd + ln.length + ln.length * m = rd + ln.length * (m + 1) by rw [Nat.mul_succ]; omega]
  · refine ⟨fun hlim => ?_, fun hlim hY => ?_⟩
    · have hpre : bs.take lim <+: u ∧ (bs.take lim).length < u.length := by
        have h1 : bs.take lim <+: u ++ again K (ended ln) := (List.take_prefix _ _).trans hp
        have h2 : (bs.take lim).length = lim := by rw [List.length_take]; omega
        have h3 : lim < u.length := by
          refine Nat.lt_of_not_le fun h => hd ⟨List.prefix_of_prefix_length_le (List.prefix_append _ _) hp (by omega), h⟩
        exact ⟨List.prefix_of_prefix_length_le h1 (List.prefix_append _ _) (by omega), by omega⟩
      refine ⟨⟨i ++ bs.take lim, hs, rd⟩, 0, (bs.drop lim).map .byte ++ Y, ?_⟩
      · rw [hrun_eq]
        simp only
        rw [crlf_limited (part _ hpre.1 hpre.2) (by have := hpre.2; rw [List.length_take] at this; omega) hlim]
    · have hpre : bs <+: u ∧ bs.length < u.length := by
        have h3 : bs.length < u.length := by
          refine Nat.lt_of_not_le fun h => hd ⟨List.prefix_of_prefix_length_le (List.prefix_append _ _) hp h, by omega⟩
        exact ⟨List.prefix_of_prefix_length_le hp (List.prefix_append _ _) (by omega), h3⟩
      obtain ⟨u', rfl⟩ := hpre.1
      refine ⟨0, i ++ bs, u', hs, lim - bs.length, by rw [List.append_assoc]; exact e, ?_, by simp [again], ?_⟩
      · rintro rfl
        simp at hpre
      · rw [hrun_eq]
        simp only
        rw [crlf_paused (part _ hpre.1 hpre.2) (by have := hpre.2; omega) (by intro x hx; rw [List.mem_singleton.1 hx]; exact hlim) hY]
        simp

/-! ## Whole requests -/

theorem loop_headers {T : Type} {pf : Bytes → Except ParsingError T} {b : Bool} (f : Nat) {t : T} {p p' : HeadersParser} {as : List Atom} {e : IoError} {x : Nat} {rest : List Atom} (hp : p.read ≤ 4096)
    (h : hrun prof p ⟨[4096 - p.read], as⟩ = (.io p' e, ⟨[x], rest⟩)) : MessageParser.loop prof pf b (f + 1) (.headers t p) (⟨[], as⟩ : AR) = (.io (.headers t p') e, ⟨[], rest⟩) := by
  rw [messageLoop_step _ _ _ _ _ _ rfl]
  simp only [msgStep, headersState]
  rw [headersParse_eq, sub_le prof (show p.read ≤ maxHeadersSize from hp)]
  simp only [show maxHeadersSize = 4096 from rfl, h, Out.bind, List.tail_cons]

theorem request_headers {t : Method × Bytes} {p p' : HeadersParser} {as : List Atom} {e : IoError} {x : Nat} {rest : List Atom} (hp : p.read ≤ 4096)
    (h : hrun prof p ⟨[4096 - p.read], as⟩ = (.io p' e, ⟨[x], rest⟩)) : RequestParser.parse prof (.headers t p) (⟨[], as⟩ : AR) = (.io (.headers t p') e, ⟨[], rest⟩) := by
  unfold RequestParser.parse
  rw [loop_headers _ hp h]
  simp [Out.bind]

theorem request_line {fl c u : Bytes} (hfl : OneLine fl) (hs : fl.length ≤ 510) {t : Method × Bytes} (ht : parseRequestLine fl = .ok t) (e : c ++ u = ended fl) (hu : u ≠ []) {p' : HeadersParser} {as : List Atom} {er : IoError}
    {x : Nat} {rest : List Atom} (h : hrun prof .new ⟨[4096], as⟩ = (.io p' er, ⟨[x], rest⟩)) : RequestParser.parse prof (.firstLine c) (⟨[], u.map .byte ++ as⟩ : AR) = (.io (.headers t p') er, ⟨[], rest⟩) := by
  unfold RequestParser.parse
  rw [messageLoop_step _ _ _ _ _ _ rfl]
  simp only [msgStep, firstLineState]
  rw [crlf_found hfl hs e hu (by simp)]
  simp only [Out.bind, ht, List.map_nil]
  rw [loop_headers (p := .new) _ (by simp [HeadersParser.new]) (by simpa [HeadersParser.new] using h)]
  rfl

theorem request_line_pauses (prof : Profile) {fl c bs u : Bytes} (hfl : OneLine fl) (hs : fl.length ≤ 510) (e : c ++ (bs ++ u) = ended fl) (hu : u ≠ []) {Y : List Atom} (hY : Y = [] ∨ ∃ post, Y = WB :: post) :
    RequestParser.parse prof (.firstLine c) (⟨[], bs.map .byte ++ Y⟩ : AR) = (.io (.firstLine (c ++ bs)) .wouldBlock, ⟨[], Y.tail⟩) := by
  have hlen := congrArg List.length e
  rw [List.length_append, List.length_append, ended_length] at hlen
  have := List.length_pos_iff.2 hu
  obtain ⟨u₀, rfl, -, ha⟩ := SectionLine.rest hfl (i := c ++ bs) (u := u) (by rw [List.append_assoc]; exact e) hu
  unfold RequestParser.parse
  rw [messageLoop_step _ _ _ _ _ _ rfl]
  simp only [msgStep, firstLineState]
  rw [crlf_paused (fun x hx => ha x (by simp [hx])) (by omega) (by simp) hY]
  simp [Out.bind]

/-- The parser after it has read `c` of a request that begins with the line `fl` and goes on with lines `ln`. -/
inductive Sectioned (fl ln : Bytes) (t : Method × Bytes) : RequestParser → Bytes → Prop
  | first {c u : Bytes} : c ++ u = ended fl → u ≠ [] → Sectioned fl ln t (.firstLine c) c
  | lines {m : Nat} {i u : Bytes} {hs : HeaderMap} : i ++ u = ended ln → u ≠ [] → m ≤ 4096 / ln.length →
      Sectioned fl ln t (.headers t ⟨i, hs, ln.length * m⟩) (ended fl ++ (again m (ended ln) ++ i))

/-- What is read up to the first pause. -/
theorem upto_pause {as : List Atom} (ho : ∀ a ∈ as, a = WB ∨ ∃ b, a = .byte b) :
    ∃ (bs : Bytes) (Y : List Atom), (Y = [] ∨ ∃ post, Y = WB :: post) ∧ as = bs.map .byte ++ Y ∧ bytesOf as = bs ++ bytesOf Y.tail ∧ Y.tail <:+ as := by
  rcases firstPause as with hn | ⟨pre, post, e, hn⟩
  · exact ⟨bytesOf as, [], .inl rfl, by rw [List.append_nil]; exact only_bytes ho hn, by simp [bytesOf], List.nil_suffix⟩
  · refine ⟨bytesOf pre, WB :: post, .inr ⟨_, rfl⟩, ?_, by rw [e, bytesOf_app]; rfl, by rw [e]; exact (List.suffix_cons _ _).trans (List.suffix_append _ _)⟩
    rw [← only_bytes (fun a ha => ho a (by rw [e]; simp [ha])) hn, e]

/-- The number of whole lines stays within the limit. -/
theorem lines_within {L q m m₂ s : Nat} (h1 : L * q + s = 4096) (h2 : s ≤ 1) (hm : m ≤ q) (h : (L + 2) * m₂ ≤ L + 1 + (4095 - L * m)) : m + m₂ ≤ q := by
  refine Nat.le_of_not_lt fun hlt => ?_
  obtain ⟨d, hd⟩ : ∃ d, q = m + d := ⟨q - m, by omega⟩
  obtain ⟨y, hy⟩ : ∃ y, m₂ = d + 1 + y := ⟨m₂ - (d + 1), by omega⟩
  subst hd
  subst hy
  have e1 : L * (m + d) = L * m + L * d := Nat.mul_add ..
  have e2 : (L + 2) * (d + 1 + y) = L * d + 2 * d + (L + 2) + (L + 2) * y := by
    rw [Nat.mul_add, Nat.mul_add, Nat.add_mul L 2 d, Nat.mul_one]
  have e3 : 0 ≤ (L + 2) * y := Nat.zero_le _
  omega

/-- One call in a section of lines of such a length that the limit cannot be stepped over. -/
theorem section_call {ln : Bytes} (hf : SectionLine ln) {q s : Nat} (hdiv : ln.length * q + s = 4096) (hmod : s ≤ 1) {m : Nat} (hm : m ≤ q) {i u : Bytes} (e : i ++ u = ended ln) (hu : u ≠ []) {bs z : Bytes}
    (hp : bs <+: u ++ again (q - m) (ended ln) ++ z) (hs : HeaderMap) {Y : List Atom} (hY : Y = [] ∨ ∃ post, Y = WB :: post) :
    (∃ p x rest, hrun prof ⟨i, hs, ln.length * m⟩ ⟨[4096 - ln.length * m], bs.map .byte ++ Y⟩ = (.io p .limitReached, ⟨[x], rest⟩)) ∨
    ∃ m' i' u' hs' x, m' ≤ q ∧ i' ++ u' = ended ln ∧ u' ≠ [] ∧ again m (ended ln) ++ i ++ bs = again m' (ended ln) ++ i' ∧
      hrun prof ⟨i, hs, ln.length * m⟩ ⟨[4096 - ln.length * m], bs.map .byte ++ Y⟩ = (.io ⟨i', hs', ln.length * m'⟩ .wouldBlock, ⟨[x], Y.tail⟩) := by
  have hlen := congrArg List.length e
  rw [List.length_append, ended_length] at hlen
  have hupos := List.length_pos_iff.2 hu
  obtain ⟨d, rfl⟩ : ∃ d, q = m + d := ⟨q - m, by omega⟩
  rw [Nat.add_sub_cancel_left] at hp
  have hroom : (4096 - ln.length * m) ≤ (u ++ again d (ended ln)).length := by
    have e1 : ln.length * (m + d) = ln.length * m + ln.length * d := Nat.mul_add ..
    have e2 : (again d (ended ln)).length = ln.length * d + 2 * d := by
      rw [again_length, ended_length]
      first
      | rw [Nat.mul_add, Nat.mul_comm d, Nat.mul_comm d]
      | rw [Nat.add_mul]
    rw [List.length_append, e2]
    omega
  have hin : ∀ x : Bytes, x <+: bs → x.length ≤ 4096 - ln.length * m → x <+: u ++ again d (ended ln) := fun x hx hl =>
    List.prefix_of_prefix_length_le (hx.trans hp) (List.prefix_append _ _) (by omega)
  by_cases hlim : 4096 - ln.length * m ≤ bs.length
  · have hl : (bs.take (4096 - ln.length * m)).length = 4096 - ln.length * m := by rw [List.length_take]; omega
    obtain ⟨h, -⟩ := lines_call (prof := prof) hf _ (hs := hs) (rd := ln.length * m) (lim := 4096 - ln.length * m) (Y := (bs.drop (4096 - ln.length * m)).map .byte ++ Y) (Nat.le_refl _) e hu
      (hin (bs.take (4096 - ln.length * m)) (List.take_prefix _ _) (by omega))
    rw [← List.append_assoc, ← List.map_append, List.take_append_drop] at h
    exact .inl (h (by omega))
  · obtain ⟨-, h⟩ := lines_call (prof := prof) hf _ (hs := hs) (rd := ln.length * m) (lim := 4096 - ln.length * m) (Y := Y) (Nat.le_refl _) e hu (hin _ (List.prefix_refl _) (by omega))
    obtain ⟨m₂, i', u', hs', x, j1, j2, j3, j4⟩ := h (by omega) hY
    refine .inr ⟨m + m₂, i', u', hs', x, ?_, j1, j2, ?_, ?_⟩
    · have hl := congrArg List.length j3
      rw [List.length_append, List.length_append, again_length, ended_length] at hl
      have : (ln.length + 2) * m₂ = m₂ * (ln.length + 2) := Nat.mul_comm _ _
      refine lines_within hdiv hmod (Nat.le_add_right _ _) ?_
      omega
    · rw [again_add, List.append_assoc, j3, List.append_assoc]
    · rw [j4, Nat.mul_add]

/-- One call on a request of such lines. -/
theorem lines_step {fl ln : Bytes} (hfl : OneLine fl) (hs : fl.length ≤ 510) {t : Method × Bytes} (ht : parseRequestLine fl = .ok t) (hf : SectionLine ln) (hmod : 4096 % ln.length ≤ 1) {p : RequestParser} {c : Bytes}
    {as : List Atom} {z : Bytes} (hS : Sectioned fl ln t p c) (ho : ∀ a ∈ as, a = WB ∨ ∃ b, a = .byte b) (hp : c ++ bytesOf as <+: ended fl ++ again (4096 / ln.length + 1) (ended ln) ++ z) :
    (∃ p' as', RequestParser.parse prof p (⟨[], as⟩ : AR) = (.io p' .limitReached, ⟨[], as'⟩)) ∨
      ∃ p' c' as', RequestParser.parse prof p (⟨[], as⟩ : AR) = (.io p' .wouldBlock, ⟨[], as'⟩) ∧ Sectioned fl ln t p' c' ∧ c ++ bytesOf as = c' ++ bytesOf as' ∧ as' <:+ as := by
  have hdiv : ln.length * (4096 / ln.length) + 4096 % ln.length = 4096 := Nat.div_add_mod 4096 ln.length
  obtain ⟨bs, Y, hY, e, eb, es⟩ := upto_pause ho
  rw [eb] at hp ⊢
  rw [e] at es ⊢
  have hp' : c ++ bs <+: ended fl ++ again (4096 / ln.length + 1) (ended ln) ++ z := by
    refine List.IsPrefix.trans ?_ hp
    rw [← List.append_assoc]
    exact List.prefix_append _ _
  cases hS with
  | @first _ u hc hu =>
    by_cases hd : u <+: bs
    · obtain ⟨bs', rfl⟩ := hd
      rw [← hc, again_succ] at hp'
      simp only [List.append_assoc c, List.append_assoc u, List.prefix_append_right_inj] at hp'
      rcases section_call (prof := prof) hf hdiv hmod (Nat.zero_le _) (i := []) (u := ended ln) rfl (by simp [ended, CRLF]) (bs := bs') (z := z) (by simpa using hp') [] hY with ⟨p', x, rest, h⟩ | ⟨m', i', u', hs', x, h1, h2, h3, h4, h⟩
      · simp only [Nat.mul_zero, Nat.sub_zero] at h
        have := request_line (prof := prof) hfl hs ht hc hu h
        rw [← List.append_assoc, ← List.map_append] at this
        exact .inl ⟨_, _, this⟩
      · simp only [Nat.mul_zero, Nat.sub_zero] at h
        have := request_line (prof := prof) hfl hs ht hc hu h
        rw [← List.append_assoc, ← List.map_append] at this
        refine .inr ⟨_, _, _, this, .lines h2 h3 h1, ?_, es⟩
        simp only [again, List.replicate_zero, List.flatten_nil, List.nil_append] at h4
        rw [h4]
        simp [← hc, List.append_assoc, again]
    · have hpre : bs <+: u ∧ bs.length < u.length := by
        rw [← hc, List.append_assoc, List.append_assoc, List.prefix_append_right_inj] at hp'
        have h3 : bs.length < u.length := Nat.lt_of_not_le fun h => hd (List.prefix_of_prefix_length_le (List.prefix_append _ _) hp' h)
        exact ⟨List.prefix_of_prefix_length_le hp' (List.prefix_append _ _) (by omega), h3⟩
      obtain ⟨u', rfl⟩ := hpre.1
      have hu' : u' ≠ [] := by rintro rfl; simp at hpre
      exact .inr ⟨_, _, _, request_line_pauses prof hfl hs hc hu' hY, .first (by rw [List.append_assoc]; exact hc) hu', by rw [List.append_assoc], es⟩
  | @lines m i u hs' hi hu hm =>
    have hmul : ln.length * m ≤ 4096 := Nat.le_trans (Nat.mul_le_mul_left _ hm) (by omega)
    have e₁ : again (4096 / ln.length + 1) (ended ln) = again m (ended ln) ++ (i ++ (u ++ again (4096 / ln.length - m) (ended ln))) := by
      rw [← List.append_assoc i, hi, ← again_succ, ← again_add]
      congr 1
      omega
    rw [e₁] at hp'
    simp only [List.append_assoc (ended fl), List.append_assoc (again m (ended ln)), List.append_assoc i, List.prefix_append_right_inj] at hp'
    rcases section_call (prof := prof) hf hdiv hmod hm hi hu hp' hs' hY with ⟨p', x, rest, h⟩ | ⟨m', i', u', hs'', x, h1, h2, h3, h4, h⟩
    · exact .inl ⟨_, _, request_headers (p := ⟨i, hs', ln.length * m⟩) hmul h⟩
    · refine .inr ⟨_, _, _, request_headers (p := ⟨i, hs', ln.length * m⟩) hmul h, .lines h2 h3 h1, ?_, es⟩
      rw [← h4]
      simp [List.append_assoc]

/-- Header lines without an end, of a length that divides 4096 or 4095. -/
theorem SectionLine.hopeless {fl ln : Bytes} (hfl : OneLine fl) (hs : fl.length ≤ 510) {t : Method × Bytes} (ht : parseRequestLine fl = .ok t) (hf : SectionLine ln) (hmod : 4096 % ln.length ≤ 1) (prof : Profile) :
    Hopeless prof (ended fl ++ again (4096 / ln.length + 1) (ended ln)) := by
  refine hopeless_of (S := Sectioned fl ln t) (.first (u := ended fl) rfl (by simp [ended, CRLF])) ?_ (fun hS ho hp => lines_step hfl hs ht hf hmod hS ho hp)
  intro p c hS
  cases hS with
  | @first _ u hc hu =>
    have := congrArg List.length hc
    have := List.length_pos_iff.2 hu
    rw [List.length_append] at *
    omega
  | @lines m i u hs' hi hu hm =>
    have hl := congrArg List.length hi
    have := List.length_pos_iff.2 hu
    rw [show 4096 / ln.length + 1 = m + (4096 / ln.length - m + 1) by omega, again_add, again_succ]
    simp only [List.length_append] at *
    omega

end Verif
