import Verif.Proofs.NetCloses
import Verif.Props.Endless

/-!
Texts of which only the beginning is read: the parser gives up, at whatever places it pauses.
-/

namespace Verif

variable {σ : Type} {prof : Profile} {rt : Router σ} {n N : Nat} {s₀ : σ}

/-- A text that is refused in whatever pieces it comes, as far as these are `Smooth`, and whatever follows: either as no request or as more than is read, and without waiting when all of it was read. -/
structure Hopeless (prof : Profile) (b : Bytes) : Prop where
  ends {z : Bytes} {as : List Atom} {r r' : Rd} {o : Out RequestParser Request} : r.Ahead as → Smooth as → bytesOf as <+: b ++ z → Calls (RequestParser.parse prof) .new r o r' →
    (∀ s, o ≠ .io s .wouldBlock) → (∃ e, o = .perr e) ∨ ∃ p e, o = .io p e ∧ isClosed p e = false
  decided {as : List Atom} {r r' : Rd} {p : RequestParser} : r.Ahead as → Smooth as → InProgress prof r p r' → r'.Ahead [] → ¬ b <+: bytesOf as

theorem Refused.hopeless {b : Bytes} (h : Refused prof b) : Hopeless prof b := by
  obtain ⟨e, hd⟩ := h.decides
  exact ⟨fun h1 h2 h3 h4 h5 => .inl ⟨e, (conform_text hd h1 h2 h3 h4 h5).1⟩, fun h1 h2 h3 h4 => h3.undecided h1 h2 h4 hd⟩

theorem scan_ends (d : UInt8) {bs : Bytes} (h : d ∉ bs) {l : Nat} (hl : bs.length < l) :
    AR.scan d [l] (bs.map .byte) = (.err .wouldBlock, bs, [l - bs.length], []) := by
  induction bs generalizing l with
  | nil =>
    obtain ⟨k, rfl⟩ : ∃ k, l = k + 1 := ⟨l - 1, by simp at hl; omega⟩
    simp [AR.scan]
  | cons b bs ih =>
    have hb : b ≠ d := fun hb => h (by simp [hb])
    simp only [List.length_cons] at hl
    obtain ⟨k, rfl⟩ : ∃ k, l = k + 1 := ⟨l - 1, by omega⟩
    rw [List.map_cons, scan_byte hb (by simp), show decN 1 [k + 1] = [k] by simp [decN], ih (fun hm => h (by simp [hm])) (by omega)]
    simp

theorem only_bytes {as : List Atom} (h : ∀ a ∈ as, a = WB ∨ ∃ b, a = .byte b) (hn : WB ∉ as) : as = (bytesOf as).map .byte := by
  induction as with
  | nil => rfl
  | cons a as ih =>
    rcases h a (by simp) with rfl | ⟨b, rfl⟩
    · simp at hn
    · rw [bytesOf, List.map_cons, ← ih (fun a ha => h a (by simp [ha])) (fun hm => hn (by simp [hm]))]

/-- One call on the first line of a text that begins with 512 bytes without a line feed. -/
theorem longLine_call (prof : Profile) {b z : Bytes} (hb : OneLine b) (hlen : 512 ≤ b.length) {l : Bytes} (hl : l.length < 512) {as : List Atom}
    (ho : ∀ a ∈ as, a = WB ∨ ∃ b, a = .byte b) (hp : l ++ bytesOf as <+: b ++ z) :
    (∃ p as', RequestParser.parse prof (.firstLine l) (⟨[], as⟩ : AR) = (.io p .limitReached, ⟨[], as'⟩)) ∨
      ∃ l' as', RequestParser.parse prof (.firstLine l) (⟨[], as⟩ : AR) = (.io (.firstLine l') .wouldBlock, ⟨[], as'⟩) ∧ l'.length < 512 ∧
        l ++ bytesOf as = l' ++ bytesOf as' ∧ as' <:+ as := by
  -- the first bytes belong to the line
  have one : ∀ {x y : Bytes}, bytesOf as = x ++ y → l.length + x.length ≤ 512 → OneLine x := by
    intro x y e hx c hc
    rw [e, ← List.append_assoc] at hp
    have h1 : l ++ x <+: b := List.prefix_of_prefix_length_le ((List.prefix_append _ _).trans hp) (List.prefix_append _ _) (by rw [List.length_append]; omega)
    exact hb c (h1.subset (by simp [hc]))
  obtain ⟨bs, X, hX, e, he⟩ : ∃ (bs : Bytes) (X : List Atom), (X = [] ∨ ∃ post, X = WB :: post) ∧ as = bs.map .byte ++ X ∧ bytesOf as = bs ++ bytesOf X := by
    rcases firstPause as with hn | ⟨pre, post, e, hn⟩
    · exact ⟨bytesOf as, [], .inl rfl, by rw [List.append_nil]; exact only_bytes ho hn, by simp [bytesOf]⟩
    · refine ⟨bytesOf pre, WB :: post, .inr ⟨_, rfl⟩, ?_, by rw [e, bytesOf_app]⟩
      rw [← only_bytes (fun a ha => ho a (by rw [e]; simp [ha])) hn, e]
  rcases Nat.lt_or_ge (l.length + bs.length) 512 with h | h
  · have h1 := one he (by omega)
    right
    rcases hX with rfl | ⟨post, rfl⟩
    · refine ⟨l ++ bs, [], ?_, by simpa using h, by rw [he]; simp [bytesOf], List.nil_suffix⟩
      rw [e, List.append_nil]
      exact request_firstLine prof l (by omega) (scan_ends LF h1.noLf (by omega)) (by simp) h1.ascii
    · refine ⟨l ++ bs, post, ?_, by simpa using h, by rw [he]; simp [bytesOf], by rw [e]; exact (List.suffix_cons _ _).trans (List.suffix_append _ _)⟩
      rw [e]
      exact request_firstLine prof l (by omega) (scan_within LF h1.noLf (by omega) _) (by simp) h1.ascii
  · left
    have hs : bs = bs.take (512 - l.length) ++ bs.drop (512 - l.length) := (List.take_append_drop _ _).symm
    have h1 : OneLine (bs.take (512 - l.length)) := one (y := bs.drop (512 - l.length) ++ bytesOf X) (by rw [← List.append_assoc, ← hs]; exact he) (by rw [List.length_take]; omega)
    have e' : as = (bs.take (512 - l.length)).map .byte ++ ((bs.drop (512 - l.length)).map .byte ++ X) := by
      rw [← List.append_assoc, ← List.map_append, ← hs]; exact e
    have h2 := request_firstLine prof l (by omega) (scan_over LF h1.noLf (l := 512 - l.length) (by rw [List.length_take]; omega) ((bs.drop (512 - l.length)).map .byte ++ X)) (by simp)
      (utf8_ascii fun c hc => (h1 c (List.mem_of_mem_take hc)).1)
    rw [← e'] at h2
    exact ⟨_, _, h2⟩

/-- A text is refused if calls, in whatever pieces it comes, either reach a limit or pause in a state in which there is still some of it to come. `S p c`: the parser is `p` after `c` was read. -/
theorem hopeless_of {b : Bytes} {S : RequestParser → Bytes → Prop} (h₀ : S .new []) (hlt : ∀ {p c}, S p c → c.length < b.length)
    (step : ∀ {p c as z}, S p c → (∀ a ∈ as, a = WB ∨ ∃ b, a = .byte b) → c ++ bytesOf as <+: b ++ z →
      (∃ p' as', RequestParser.parse prof p (⟨[], as⟩ : AR) = (.io p' .limitReached, ⟨[], as'⟩)) ∨
      ∃ p' c' as', RequestParser.parse prof p (⟨[], as⟩ : AR) = (.io p' .wouldBlock, ⟨[], as'⟩) ∧ S p' c' ∧ c ++ bytesOf as = c' ++ bytesOf as' ∧ as' <:+ as) : Hopeless prof b where
  ends := by
    intro z as r r' o hr hs hp hc ho
    have key : ∀ {p : RequestParser} {r : Rd}, Calls (RequestParser.parse prof) p r o r' → ∀ {c : Bytes}, S p c → ∀ {as : List Atom}, r.Ahead as →
        (∀ a ∈ as, a = WB ∨ ∃ b, a = .byte b) → c ++ bytesOf as <+: b ++ z → ∃ p, o = .io p .limitReached := by
      clear hc
      intro p r hc
      induction hc with
      | last h =>
        intro c hS as hr hon hp
        obtain ⟨as', h1, h2⟩ := parse_ahead h hr
        rcases step hS hon hp with ⟨p, as'', h3⟩ | ⟨p', c', as'', h3, -⟩
        · rw [h2] at h3; exact ⟨p, (Prod.mk.inj h3).1⟩
        · rw [h2] at h3; exact absurd (Prod.mk.inj h3).1 (ho _)
      | pause h _ ih =>
        intro c hS as hr hon hp
        obtain ⟨as', h1, h2⟩ := parse_ahead h hr
        rcases step hS hon hp with ⟨p, as'', h3⟩ | ⟨p', c', as'', h3, h4, h5, h6⟩
        · rw [h2] at h3; simp at h3
        · rw [h2] at h3
          simp only [Prod.mk.injEq, Out.io.injEq, AR.mk.injEq] at h3
          obtain ⟨⟨rfl, -⟩, -, rfl⟩ := h3
          exact ih ho h4 h1 (fun a ha => hon a (h6.subset ha)) (by rw [← h5]; exact hp)
    obtain ⟨p, rfl⟩ := key hc h₀ hr hs.only hp
    exact .inr ⟨p, _, rfl, by simp [isClosed]⟩
  decided := by
    intro as r r' p hr hs hi ha hp
    obtain ⟨z, hz⟩ := hp
    have key : ∃ c as', S p c ∧ r'.Ahead as' ∧ (∀ a ∈ as', a = WB ∨ ∃ b, a = .byte b) ∧ c ++ bytesOf as' = bytesOf as := by
      clear ha
      induction hi with
      | new => exact ⟨[], as, h₀, hr, hs.only, rfl⟩
      | pause _ h ih =>
        obtain ⟨c, as', h1, h2, h3, h4⟩ := ih
        obtain ⟨as₁, h5, h6⟩ := parse_ahead h h2
        rcases step h1 h3 (z := z) (by rw [h4, hz]; exact List.prefix_refl _) with ⟨p, as'', h7⟩ | ⟨p', c', as'', h7, h8, h9, h10⟩
        · rw [h6] at h7; simp at h7
        · rw [h6] at h7
          simp only [Prod.mk.injEq, Out.io.injEq, AR.mk.injEq] at h7
          obtain ⟨⟨rfl, -⟩, -, rfl⟩ := h7
          exact ⟨c', as₁, h8, h5, fun a ha => h3 a (h10.subset ha), by rw [← h9, h4]⟩
    obtain ⟨c, as', h1, h2, -, h3⟩ := key
    have : as' = [] := by rw [← h2.2, ha.2]
    subst this
    have h4 := congrArg List.length (h3.trans hz.symm)
    have h5 := hlt h1
    simp only [bytesOf, List.append_nil, List.length_append] at h4
    omega

/-- A line of 512 ASCII characters is too long for a first line, in whatever pieces it comes. -/
theorem OneLine.hopeless {b : Bytes} (hb : OneLine b) (hlen : 512 ≤ b.length) : Hopeless prof b := by
  refine hopeless_of (S := fun p c => p = .firstLine c ∧ c.length < 512) ⟨rfl, by simp⟩ (fun h => by omega) ?_
  rintro p c as z ⟨rfl, hc⟩ ho hp
  rcases longLine_call prof hb hlen hc ho hp with h | ⟨l', as', h1, h2, h3, h4⟩
  · exact .inl h
  · exact .inr ⟨_, l', as', h1, ⟨rfl, h2⟩, h3, h4⟩

/-- Nobody uses the connection, and all was read of a text that begins with requests of which none asks for the end, and goes on with something that is refused: it has been closed, after answering all of these requests
and saying that there was something else. -/
theorem Stands.hopeless_text {r₀ : Rd} {as : List (Request × σ)} {x : Slot Rd Nbw} (h : Stands prof rt r₀ as x) {evs : List Atom}
    {ms : List (Bytes × Request)} (hms : ∀ m ∈ ms, FittingRequest m.1 m.2 ∧ ¬ CloseAsked m.2) {b : Bytes} (hb : Hopeless prof b)
    (he : ∀ conn, x = .live conn → conn.reader.src.atoms = [] ∧ ms.flatMap Prod.fst ++ b <+: bytesOf evs)
    (hr : r₀.Ahead evs) (hsm : Smooth evs) {z : Bytes} (htext : bytesOf evs <+: ms.flatMap Prod.fst ++ b ++ z) :
    ∃ conn out, x = .gone conn ∧ as.map Prod.fst = ms.map Prod.snd ∧ AnsweredIn rt as out ∧ conn.writer.total = out ++ badRequestResponse := by
  have hfit : ∀ m ∈ ms, FittingRequest m.1 m.2 := fun m hm => (hms m hm).1
  rw [List.append_assoc] at htext
  -- what is left where some requests were read
  have part : ∀ {qs : List Request} {r₁ : Rd}, Heard prof r₀ qs r₁ →
      ∃ (ms₁ ms₂ : List (Bytes × Request)) (as' : List Atom), ms = ms₁ ++ ms₂ ∧ qs = ms₁.map Prod.snd ∧ r₁.Ahead as' ∧ Smooth as' ∧ bytesOf as' <+: ms₂.flatMap Prod.fst ++ (b ++ z) ∧
        (ms.flatMap Prod.fst ++ b <+: bytesOf evs → ms₂.flatMap Prod.fst ++ b <+: bytesOf as') := by
    intro qs r₁ hh
    rcases heard_first hh hfit hr hsm htext with ⟨ms₁, ms₂, as', e1, e2, e3, e4, e5, e6⟩ | ⟨q', qs', r', r'', as', e1, e2, e3, e4, e5⟩
    · refine ⟨ms₁, ms₂, as', e1, e2, e3, e4, e5, fun hall => ?_⟩
      rw [e1, e6, List.flatMap_append, List.append_assoc, List.prefix_append_right_inj] at hall
      exact hall
    · rcases hb.ends e3 e4 e5 e2 (by simp) with ⟨e, h⟩ | ⟨p, e, h, -⟩ <;> cases h
  have comes : ∀ {qs : List Request} {r₁ r' : Rd} {o : Out RequestParser Request}, Heard prof r₀ qs r₁ →
      Calls (RequestParser.parse prof) .new r₁ o r' → (∀ p, o ≠ .io p .wouldBlock) → (∀ q, o ≠ .done q) →
      qs = ms.map Prod.snd ∧ ((∃ e, o = .perr e) ∨ ∃ p e, o = .io p e ∧ isClosed p e = false) := by
    intro qs r₁ r' o hh hc ho hn
    obtain ⟨ms₁, ms₂, as', e1, e2, e3, e4, e5, -⟩ := part hh
    cases ms₂ with
    | nil => exact ⟨by rw [e2, e1, List.append_nil], hb.ends e3 e4 (by simpa using e5) hc ho⟩
    | cons m ms₂ =>
      obtain ⟨rfl, -⟩ := conform_one (hfit m (by rw [e1]; simp)) e3 e4 (z := ms₂.flatMap Prod.fst ++ (b ++ z)) (by simpa using e5) hc ho
      exact absurd rfl (hn _)
  cases h with
  | live h1 h2 h3 h4 =>
    exfalso
    obtain ⟨ms₁, ms₂, as', e1, -, e3, e4, -, e5⟩ := part h1
    rw [(he _ rfl).1] at h4
    have e5 := e5 (he _ rfl).2
    cases ms₂ with
    | nil => exact hb.decided e3 e4 h3 h4 (by simpa using e5)
    | cons m ms₂ => exact h3.idle e3 e4 h4 (hfit m (by rw [e1]; simp)) ((by simp : m.1 <+: (m :: ms₂).flatMap Prod.fst ++ b).trans e5)
  | @asked conn qs q' r₁ h1 h2 h3 h4 h5 =>
    exfalso
    obtain ⟨ms₁, ms₂, as', e1, e2, -⟩ := part h1
    have hm : q' ∈ ms₁.map Prod.snd := by rw [← e2]; simp
    obtain ⟨m', hm', rfl⟩ := List.mem_map.1 hm
    exact (hms m' (by rw [e1]; simp [hm'])).2 h3
  | closed h1 h2 _ _ h5 h6 =>
    obtain ⟨-, ⟨e, h⟩ | ⟨p, e, h, h'⟩⟩ := comes h1 h5 (by rintro p h; cases h; exact h6.1 rfl) (by simp)
    · cases h
    · cases h; rw [h6.2] at h'; cases h'
  | @bad conn qs out _ _ _ h1 h2 h3 h4 h5 h6 h7 =>
    obtain ⟨i1, -⟩ := comes h1 h5 (by
      rintro p rfl
      rcases h6 with ⟨e, h⟩ | ⟨p, e, h, h'⟩
      · cases h
      · cases h; exact h' rfl) (by
      rintro q rfl
      rcases h6 with ⟨e, h⟩ | ⟨p, e, h, -⟩ <;> cases h)
    exact ⟨conn, out, rfl, by rw [h3, i1], h4, h7⟩
  | panic h1 h2 h3 =>
    obtain ⟨-, ⟨e, h⟩ | ⟨p, e, h, -⟩⟩ := comes h1 h3 (by simp) (by simp) <;> cases h

end Verif
