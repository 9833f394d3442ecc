import Verif.Proofs.SlowChunks

/-!
Header lines, one byte at a time.
-/

namespace Verif

variable {prof : Profile}

theorem request_headers_of {t : Method × Bytes} {p p' : HeadersParser} {as : List Atom} {e : IoError} {lim x : Nat} {rest : List Atom} (hp : prof.sub 4096 p.read = some lim)
    (h : hrun prof p ⟨[lim], as⟩ = (.io p' e, ⟨[x], rest⟩)) : RequestParser.parse prof (.headers t p) (⟨[], as⟩ : AR) = (.io (.headers t p') e, ⟨[], rest⟩) := by
  unfold RequestParser.parse
  rw [messageLoop_step _ _ _ _ _ _ rfl]
  simp only [msgStep, headersState]
  rw [headersParse_eq]
  simp only [show maxHeadersSize = 4096 from rfl, hp, h, Out.bind, List.tail_cons, id]

theorem request_headers_over {t : Method × Bytes} {p : HeadersParser} (hp : 4096 < p.read) (as : List Atom) : RequestParser.parse ⟨true⟩ (.headers t p) (⟨[], as⟩ : AR) = (.panic, ⟨[], as⟩) := by
  unfold RequestParser.parse
  rw [messageLoop_step _ _ _ _ _ _ rfl]
  simp only [msgStep, headersState]
  have : Profile.sub ⟨true⟩ maxHeadersSize p.read = none := by
    unfold Profile.sub
    rw [if_neg (by simp only [maxHeadersSize]; omega)]; rfl
  rw [headersParse_eq, this]
  rfl

/-- The parser after it has read `c` of a section of lines `ln`. -/
def LinesAt (t : Method × Bytes) (ln c : Bytes) (p : RequestParser) : Prop :=
  ∃ m i u hs, i ++ u = ended ln ∧ u ≠ [] ∧ c = again m (ended ln) ++ i ∧ p = .headers t ⟨i, hs, ln.length * m⟩

/-- A section of lines, one byte at a time, with at least two bytes to go to the limit in each call. -/
theorem slow_lines {ln : Bytes} (hf : SectionLine ln) {t : Method × Bytes} {k : Nat} (hk : ∀ m < k, ∃ lim, prof.sub 4096 (ln.length * m) = some lim ∧ 2 ≤ lim) (bs : Bytes) :
    ∀ {c : Bytes} {p : RequestParser}, LinesAt t ln c p → c ++ bs = again k (ended ln) → ∃ p', Slowly prof p bs p' ∧ LinesAt t ln (again k (ended ln)) p' := by
  induction bs with
  | nil =>
    intro c p h e
    rw [List.append_nil] at e
    exact ⟨p, .nil, e ▸ h⟩
  | cons b bs ih =>
    rintro c p ⟨m, i, u, hs, h1, h2, rfl, rfl⟩ e
    have hlen := congrArg List.length h1
    rw [List.length_append, ended_length] at hlen
    have hm : m < k := by
      have := congrArg List.length e
      rw [List.length_append, List.length_append, again_length, again_length, ended_length, List.length_cons] at this
      refine Nat.lt_of_not_le fun h => ?_
      have := Nat.mul_le_mul_right (ln.length + 2) h
      omega
    obtain ⟨lim, hl, hl2⟩ := hk m hm
    obtain ⟨d, rfl⟩ : ∃ d, k = m + (d + 1) := ⟨k - m - 1, by omega⟩
    have hp : [b] <+: u ++ again d (ended ln) := by
      refine ⟨bs, ?_⟩
      have e₁ := e
      rw [again_add, List.append_assoc, List.append_cancel_left_eq, again_succ, ← h1, List.append_assoc, List.append_cancel_left_eq, h1] at e₁
      exact e₁
    obtain ⟨m₂, i', u', hs', x, g1, g2, g3, g4⟩ := (lines_call (prof := prof) hf _ (hs := hs) (rd := ln.length * m) (lim := lim) (Y := []) (Nat.le_refl _) h1 h2 hp).2 (by simp; omega) (.inl rfl)
    have step := request_headers_of (t := t) (p := ⟨i, hs, ln.length * m⟩) hl g4
    obtain ⟨p', j1, j2⟩ := ih (c := again m (ended ln) ++ i ++ [b]) (p := .headers t ⟨i', hs', ln.length * m + ln.length * m₂⟩)
      ⟨m + m₂, i', u', hs', g1, g2, by rw [List.append_assoc, g3, again_add, List.append_assoc], by rw [Nat.mul_add]⟩ (by rw [List.append_assoc]; exact e)
    exact ⟨p', .cons (fun X => (request_block X (by simp [WB]) step).2) j1, j2⟩

/-- The first line, one byte at a time. -/
theorem slow_first (prof : Profile) {fl : Bytes} (hfl : OneLine fl) (hs : fl.length ≤ 510) {t : Method × Bytes} (ht : parseRequestLine fl = .ok t) : Slowly prof .new (ended fl) (.headers t .new) := by
  have key : ∀ (bs c : Bytes), c ++ bs = ended fl → bs ≠ [] → Slowly prof (.firstLine c) bs (.headers t .new) := by
    intro bs
    induction bs with
    | nil => intro c _ h; exact absurd rfl h
    | cons b bs ih =>
      intro c e _
      by_cases hb : bs = []
      · subst hb
        refine .cons (fun X => ?_) .nil
        have hw : hrun prof .new ⟨[4096], WB :: X⟩ = (.io .new .wouldBlock, ⟨[4096], X⟩) := by
          rw [hrun_eq]
          simp only [HeadersParser.new]
          rw [WB, crlf_wb prof (by simp)]
        exact request_line hfl hs ht e (by simp) hw
      · exact .cons (fun X => request_line_pauses prof (bs := [b]) (u := bs) hfl hs e hb (Y := WB :: X) (.inr ⟨_, rfl⟩)) (ih (c ++ [b]) (by rw [List.append_assoc]; exact e) hb)
  exact key _ [] rfl (by simp [ended, CRLF])

/-- Where the parser is between the lines. -/
theorem LinesAt.between {t : Method × Bytes} {ln : Bytes} {k : Nat} {p : RequestParser} (h : LinesAt t ln (again k (ended ln)) p) : ∃ hs, p = .headers t ⟨[], hs, ln.length * k⟩ := by
  obtain ⟨m, i, u, hs, h1, h2, h3, rfl⟩ := h
  have hlen := congrArg List.length h1
  have hlen' := congrArg List.length h3
  have := List.length_pos_iff.2 h2
  rw [List.length_append, ended_length] at hlen
  rw [List.length_append, again_length, again_length, ended_length] at hlen'
  have hmk : m = k := by
    rcases Nat.lt_trichotomy m k with h | h | h
    · have := Nat.mul_le_mul_right (ln.length + 2) (show m + 1 ≤ k from h)
      rw [Nat.add_mul, Nat.one_mul] at this
      omega
    · exact h
    · have := Nat.mul_le_mul_right (ln.length + 2) (show k + 1 ≤ m from h)
      rw [Nat.add_mul, Nat.one_mul] at this
      omega
  subst hmk
  obtain rfl : i = [] := List.length_eq_zero_iff.1 (by omega)
  exact ⟨hs, rfl⟩

/-- A first line and header lines. -/
theorem slow_section {fl ln : Bytes} (hfl : OneLine fl) (hs : fl.length ≤ 510) {t : Method × Bytes} (ht : parseRequestLine fl = .ok t) (hf : SectionLine ln) {k : Nat}
    (hk : ∀ m < k, ∃ lim, prof.sub 4096 (ln.length * m) = some lim ∧ 2 ≤ lim) : ∃ hs, Slowly prof .new (ended fl ++ again k (ended ln)) (.headers t ⟨[], hs, ln.length * k⟩) := by
  obtain ⟨p', h1, h2⟩ := slow_lines hf (t := t) hk (again k (ended ln)) (c := []) (p := .headers t .new) ⟨0, [], ended ln, [], rfl, by simp [ended, CRLF], rfl, rfl⟩ rfl
  obtain ⟨hs', rfl⟩ := h2.between
  exact ⟨hs', (slow_first prof hfl hs ht).append h1⟩

end Verif
