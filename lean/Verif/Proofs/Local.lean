import Verif.Proofs.Fuel

/-!
A parse that succeeds depends only on what it consumed.
-/

namespace Verif

open Reader

/-- Success depends only on what was consumed. -/
def Local {σ τ : Type} (P : AR → Out σ τ × AR) : Prop :=
  ∀ (ls : List Nat) (as : List Atom) (v : τ) (r : AR), P ⟨ls, as⟩ = (.done v, r) →
    ∃ pre, as = pre ++ r.atoms ∧ ∀ X, P ⟨ls, pre ++ X⟩ = (.done v, ⟨r.lims, X⟩)

theorem scan_local {d : UInt8} {ls : List Nat} {as : List Atom} {bs : Bytes} {ls' : List Nat} {as' : List Atom}
    (h : AR.scan d ls as = (.ok, bs, ls', as')) :
    ∃ pre, as = pre ++ as' ∧ ∀ X, AR.scan d ls (pre ++ X) = (.ok, bs, ls', X) := by
  induction as generalizing ls bs with
  | nil =>
    by_cases h0 : 0 ∈ ls
    · rw [scan_zero d h0] at h; cases h
    · rw [scan_nil d h0] at h; cases h
  | cons a as ih =>
    by_cases h0 : 0 ∈ ls
    · rw [scan_zero d h0] at h; cases h
    · cases a with
      | byte b =>
        by_cases hb : b = d
        · subst hb
          rw [scan_delim b h0] at h
          simp only [Prod.mk.injEq, true_and] at h
          obtain ⟨rfl, rfl, rfl⟩ := h
          exact ⟨[.byte b], rfl, fun X => scan_delim b h0 X⟩
        · rw [scan_byte hb h0] at h
          simp only [Prod.mk.injEq] at h
          obtain ⟨h1, rfl, h3⟩ := h
          obtain ⟨pre, hp, hX⟩ := ih (ls := decN 1 ls) (bs := (AR.scan d (decN 1 ls) as).2.1)
            (by rw [Prod.ext_iff, Prod.ext_iff]; exact ⟨h1, rfl, h3⟩)
          refine ⟨.byte b :: pre, by rw [hp]; rfl, fun X => ?_⟩
          rw [List.cons_append, scan_byte hb h0, hX X]
      | eof =>
        rw [scan_eof d h0] at h
        simp only [Prod.mk.injEq, true_and] at h
        obtain ⟨rfl, rfl, rfl⟩ := h
        exact ⟨[.eof], rfl, fun X => scan_eof d h0 X⟩
      | err e =>
        by_cases he : e = .interrupted
        · subst he
          rw [scan_int d h0] at h
          obtain ⟨pre, hp, hX⟩ := ih h
          refine ⟨.err .interrupted :: pre, by rw [hp]; rfl, fun X => ?_⟩
          rw [List.cons_append, scan_int d h0, hX X]
        · rw [scan_err d he h0] at h; cases h

theorem takeN_local {n : Nat} {ls : List Nat} {as : List Atom} {bs : Bytes} {ls' : List Nat} {as' : List Atom}
    (h : AR.takeN n ls as = (.ok, bs, ls', as')) :
    ∃ pre, as = pre ++ as' ∧ ∀ X, AR.takeN n ls (pre ++ X) = (.ok, bs, ls', X) := by
  induction n generalizing ls bs as with
  | zero =>
    simp only [AR.takeN, Prod.mk.injEq, true_and] at h
    obtain ⟨rfl, rfl, rfl⟩ := h
    exact ⟨[], rfl, fun X => by simp [AR.takeN]⟩
  | succ n ih =>
    by_cases h0 : 0 ∈ ls
    · rw [takeN_zero' h0] at h; cases h
    · cases as with
      | nil => rw [takeN_nil h0] at h; cases h
      | cons a as =>
        cases a with
        | byte b =>
          rw [takeN_byte h0] at h
          simp only [Prod.mk.injEq] at h
          obtain ⟨h1, rfl, h3⟩ := h
          obtain ⟨pre, hp, hX⟩ := ih (ls := decN 1 ls) (as := as) (bs := (AR.takeN n (decN 1 ls) as).2.1)
            (by rw [Prod.ext_iff, Prod.ext_iff]; exact ⟨h1, rfl, h3⟩)
          refine ⟨.byte b :: pre, by rw [hp]; rfl, fun X => ?_⟩
          rw [List.cons_append, takeN_byte h0, hX X]
        | eof => rw [takeN_eof h0] at h; cases h
        | err e => rw [takeN_err h0] at h; cases h

theorem drain_local {ls : List Nat} {as : List Atom} {bs : Bytes} {ls' : List Nat} {as' : List Atom}
    (h : AR.drain ls as = (.ok, bs, ls', as')) :
    ∃ pre, as = pre ++ as' ∧ ∀ X, AR.drain ls (pre ++ X) = (.ok, bs, ls', X) := by
  induction as generalizing ls bs with
  | nil =>
    by_cases h0 : 0 ∈ ls
    · rw [drain_zero h0] at h; cases h
    · rw [drain_nil h0] at h; cases h
  | cons a as ih =>
    by_cases h0 : 0 ∈ ls
    · rw [drain_zero h0] at h; cases h
    · cases a with
      | byte b =>
        rw [drain_byte b h0] at h
        simp only [Prod.mk.injEq] at h
        obtain ⟨h1, rfl, h3⟩ := h
        obtain ⟨pre, hp, hX⟩ := ih (ls := decN 1 ls) (bs := (AR.drain (decN 1 ls) as).2.1)
          (by rw [Prod.ext_iff, Prod.ext_iff]; exact ⟨h1, rfl, h3⟩)
        refine ⟨.byte b :: pre, by rw [hp]; rfl, fun X => ?_⟩
        rw [List.cons_append, drain_byte b h0, hX X]
      | eof =>
        rw [drain_eof h0] at h
        simp only [Prod.mk.injEq, true_and] at h
        obtain ⟨rfl, rfl, rfl⟩ := h
        exact ⟨[.eof], rfl, fun X => drain_eof h0 X⟩
      | err e =>
        by_cases he : e = .interrupted
        · subst he
          rw [drain_int h0] at h
          obtain ⟨pre, hp, hX⟩ := ih h
          refine ⟨.err .interrupted :: pre, by rw [hp]; rfl, fun X => ?_⟩
          rw [List.cons_append, drain_int h0, hX X]
        · rw [drain_err he h0] at h; cases h

theorem crlfOut_done_ok {line bs : Bytes} {o : IoRes} {l : Bytes} (h : crlfOut line o bs = .done l) : o = .ok := by
  cases o with
  | ok => rfl
  | err e => unfold crlfOut at h; split at h <;> (simp only at h; split at h <;> cases h)
  | diverge => unfold crlfOut at h; split at h <;> cases h

theorem crlf_local (prof : Profile) (line : Bytes) : Local (CrlfLineParser.parse (R := AR) prof line) := by
  intro ls as v r h
  cases hl : prof.sub maxLineSize line.length with
  | none => simp [CrlfLineParser.parse, hl] at h
  | some lim =>
    rw [crlf_eq prof line lim hl] at h
    simp only [Prod.mk.injEq] at h
    obtain ⟨ho, rfl⟩ := h
    have hok := crlfOut_done_ok ho
    obtain ⟨pre, hp, hX⟩ := scan_local (d := LF) (ls := lim :: ls) (as := as)
      (by rw [Prod.ext_iff]; exact ⟨hok, rfl⟩)
    refine ⟨pre, hp, fun X => ?_⟩
    rw [crlf_eq prof line lim hl, hX X]
    rw [hok] at ho
    simp only [ho]

theorem bytes_local (p : BytesDeframer) : Local (BytesDeframer.parse (R := AR) p) := by
  intro ls as v r h
  rw [bytesDeframer_eq] at h
  cases hq : AR.takeN (p.size - p.filled.length) ls as with
  | mk o q =>
  obtain ⟨b, ls', as'⟩ := q
  rw [hq] at h
  cases o with
  | ok =>
    simp only [Prod.mk.injEq, Out.done.injEq] at h
    obtain ⟨rfl, rfl⟩ := h
    obtain ⟨pre, hp, hX⟩ := takeN_local hq
    exact ⟨pre, hp, fun X => by rw [bytesDeframer_eq, hX X]⟩
  | err e => simp at h
  | diverge => simp at h

theorem untilEof_local (d : Bytes) : Local (BytesUntilEofDeframer.parse (R := AR) d) := by
  intro ls as v r h
  rw [bytesUntilEof_eq] at h
  cases hq : AR.drain ls as with
  | mk o q =>
  obtain ⟨b, ls', as'⟩ := q
  rw [hq] at h
  cases o with
  | ok =>
    simp only [Prod.mk.injEq, Out.done.injEq] at h
    obtain ⟨rfl, rfl⟩ := h
    obtain ⟨pre, hp, hX⟩ := drain_local hq
    exact ⟨pre, hp, fun X => by rw [bytesUntilEof_eq, hX X]⟩
  | err e => simp at h
  | diverge => simp at h

theorem Local.bind {σ σ' τ τ' : Type} {P : AR → Out σ τ × AR} (h : Local P) (g : σ → σ') (f : τ → Out σ' τ') :
    Local fun a => ((P a).1.bind g f, (P a).2) := by
  intro ls as v r hv
  simp only [Prod.mk.injEq] at hv
  obtain ⟨h1, rfl⟩ := hv
  cases hp : P ⟨ls, as⟩ with
  | mk o r =>
  rw [hp] at h1
  cases o with
  | done w =>
    obtain ⟨pre, hpre, hX⟩ := h _ _ _ _ hp
    exact ⟨pre, hpre, fun X => by simp only [hX X]; simp only [Out.bind] at h1 ⊢; rw [h1]⟩
  | _ => simp [Out.bind] at h1

theorem Local.limit {σ τ : Type} {P : AR → Out σ τ × AR} (h : Local P) (lim : Nat) :
    Local fun a => ((P ⟨lim :: a.lims, a.atoms⟩).1, ⟨(P ⟨lim :: a.lims, a.atoms⟩).2.lims.tail,
      (P ⟨lim :: a.lims, a.atoms⟩).2.atoms⟩) := by
  intro ls as v r hv
  simp only [Prod.mk.injEq] at hv
  obtain ⟨h1, rfl⟩ := hv
  cases hp : P ⟨lim :: ls, as⟩ with
  | mk o r =>
  rw [hp] at h1
  simp only at h1
  subst h1
  obtain ⟨pre, hpre, hX⟩ := h _ _ _ _ hp
  exact ⟨pre, hpre, fun X => by simp only [hX X]⟩

theorem hrun_local (prof : Profile) (p : HeadersParser) : Local (hrun prof p) := by
  intro ls as v r h
  obtain ⟨n, hn⟩ : ∃ n, as.length ≤ n := ⟨_, Nat.le_refl _⟩
  induction n using Nat.strongRecOn generalizing p ls as with
  | _ n ih =>
    rw [hrun_eq] at h
    have hprog := crlf_progress prof p.inner ⟨ls, as⟩
    cases hc : CrlfLineParser.parse prof p.inner (⟨ls, as⟩ : AR) with
    | mk o1 r1 =>
    rw [hc] at h hprog
    cases o1 with
    | done line =>
      obtain ⟨pre1, hp1, hX1⟩ := crlf_local prof p.inner _ _ _ _ hc
      have hlt := hprog.2.2 line rfl
      simp only at h hlt
      by_cases hnil : line = []
      · simp only [hnil, if_true, Prod.mk.injEq] at h
        obtain ⟨h1, rfl⟩ := h
        refine ⟨pre1, hp1, fun X => ?_⟩
        rw [hrun_eq, hX1 X]
        simp only [hnil, if_true, h1]
      · simp only [hnil, if_false] at h
        cases hph : parseHeader line with
        | error e => simp [hph] at h
        | ok hv =>
          simp only [hph] at h
          obtain ⟨pre2, hp2, hX2⟩ := ih r1.atoms.length (by omega) _ _ _ h (Nat.le_refl _)
          refine ⟨pre1 ++ pre2, by rw [hp1, hp2, List.append_assoc], fun X => ?_⟩
          rw [hrun_eq, List.append_assoc, hX1 (pre2 ++ X)]
          simp only [hnil, if_false, hph]
          exact hX2 X
    | _ => simp at h

theorem headers_local (prof : Profile) (p : HeadersParser) : Local (HeadersParser.parse (R := AR) prof p) := by
  intro ls as v r h
  cases hl : prof.sub maxHeadersSize p.read with
  | none => rw [headersParse_eq, hl] at h; simp at h
  | some lim =>
    rw [headersParse_eq, hl] at h
    obtain ⟨pre, hp, hX⟩ := (hrun_local prof p).limit lim ls as _ _ h
    exact ⟨pre, hp, fun X => by rw [headersParse_eq, hl]; exact hX X⟩

theorem chunkStep_local (prof : Profile) (body : Bytes) (st : ChunkState) : Local (chunkStep prof body st) := by
  intro ls as v r h
  cases st with
  | finished =>
    simp only [chunkStep, Prod.mk.injEq] at h
    obtain ⟨h, rfl⟩ := h
    exact ⟨[], rfl, fun X => by simp [chunkStep, h]⟩
  | size line =>
    exact (((crlf_local prof line).bind _ _).bind _ _) _ _ _ _ h
  | data p =>
    exact (((bytes_local p).bind _ _).bind _ _) _ _ _ _ h
  | tailingCrlf line l =>
    exact (((crlf_local prof line).bind _ _).bind _ _) _ _ _ _ h

theorem crun_local (prof : Profile) (p : ChunksParser) : Local (crun prof p) := by
  intro ls as v r h
  obtain ⟨n, hn⟩ : ∃ n, 3 * as.length + p.state.rank ≤ n := ⟨_, Nat.le_refl _⟩
  induction n using Nat.strongRecOn generalizing p ls as with
  | _ n ih =>
    rw [crun_eq] at h
    by_cases hst : p.state = .finished
    · simp only [hst, if_true, Prod.mk.injEq] at h
      obtain ⟨h, rfl⟩ := h
      exact ⟨[], rfl, fun X => by rw [crun_eq]; simp [hst, h]⟩
    · simp only [hst, if_false] at h
      have hprog := chunkStep_progress prof p.body p.state ⟨ls, as⟩ hst
      cases hs : chunkStep prof p.body p.state ⟨ls, as⟩ with
      | mk o1 r1 =>
      rw [hs] at h hprog
      cases o1 with
      | done p1 =>
        obtain ⟨pre1, hp1, hX1⟩ := chunkStep_local prof p.body p.state _ _ _ _ hs
        have hlt := hprog.2.2 p1 rfl
        simp only at h hlt
        obtain ⟨pre2, hp2, hX2⟩ := ih _ (Nat.lt_of_lt_of_le hlt hn) p1 _ _ h (Nat.le_refl _)
        refine ⟨pre1 ++ pre2, by rw [hp1, hp2, List.append_assoc], fun X => ?_⟩
        rw [crun_eq, List.append_assoc, hX1 (pre2 ++ X)]
        simp only [hst, if_false]
        exact hX2 X
      | _ => simp at h

theorem body_local (prof : Profile) (p : BodyParser) : Local (BodyParser.parse (R := AR) prof p) := by
  intro ls as v r h
  cases hl : prof.sub maxBodySize p.readSoFar with
  | none => rw [bodyParse_eq, hl] at h; simp at h
  | some lim =>
    rw [bodyParse_eq, hl] at h
    cases p with
    | withSize d =>
      obtain ⟨pre, hp, hX⟩ := ((bytes_local d).bind BodyParser.withSize .done).limit lim ls as _ _ h
      exact ⟨pre, hp, fun X => by rw [bodyParse_eq, hl]; exact hX X⟩
    | untilEof d =>
      obtain ⟨pre, hp, hX⟩ := ((untilEof_local d).bind BodyParser.untilEof .done).limit lim ls as _ _ h
      exact ⟨pre, hp, fun X => by rw [bodyParse_eq, hl]; exact hX X⟩
    | chunked d =>
      obtain ⟨pre, hp, hX⟩ := ((crun_local prof d).bind BodyParser.chunked .done).limit lim ls as _ _ h
      exact ⟨pre, hp, fun X => by rw [bodyParse_eq, hl]; exact hX X⟩
    | empty =>
      simp only [Prod.mk.injEq] at h
      obtain ⟨h, rfl⟩ := h
      exact ⟨[], rfl, fun X => by rw [bodyParse_eq, hl]; simp [h]⟩

section
variable {T : Type}

theorem msgStep_local (prof : Profile) (pf : Bytes → Except ParsingError T) (b : Bool) (st : MsgState T) :
    Local (msgStep prof pf b st) := by
  intro ls as v r h
  cases st with
  | finished t hs bd =>
    simp only [msgStep, Prod.mk.injEq] at h
    obtain ⟨h, rfl⟩ := h
    exact ⟨[], rfl, fun X => by simp [msgStep, h]⟩
  | firstLine line => exact ((crlf_local prof line).bind _ _) _ _ _ _ h
  | headers t p => exact ((headers_local prof p).bind _ _) _ _ _ _ h
  | body t hs p => exact ((body_local prof p).bind _ _) _ _ _ _ h

theorem message_local (prof : Profile) (pf : Bytes → Except ParsingError T) (b : Bool) (f : Nat) (st : MsgState T) :
    Local (MessageParser.loop (R := AR) prof pf b f st) := by
  intro ls as v r h
  induction f generalizing st ls as with
  | zero => simp [MessageParser.loop] at h
  | succ f ih =>
    by_cases hfin : st.isFinished = false
    · rw [messageLoop_step _ _ _ _ _ _ hfin] at h
      cases hs : msgStep prof pf b st ⟨ls, as⟩ with
      | mk o1 r1 =>
      rw [hs] at h
      cases o1 with
      | done st1 =>
        obtain ⟨pre1, hp1, hX1⟩ := msgStep_local prof pf b st _ _ _ _ hs
        obtain ⟨pre2, hp2, hX2⟩ := ih st1 _ _ h
        refine ⟨pre1 ++ pre2, by rw [hp1, hp2, List.append_assoc], fun X => ?_⟩
        rw [messageLoop_step _ _ _ _ _ _ hfin, List.append_assoc, hX1 (pre2 ++ X)]
        exact hX2 X
      | _ => simp at h
    · cases st with
      | finished t hs bd =>
        rw [messageLoop_finished] at h
        simp only [Prod.mk.injEq] at h
        obtain ⟨h, rfl⟩ := h
        exact ⟨[], rfl, fun X => by rw [messageLoop_finished]; simp [h]⟩
      | _ => simp [MsgState.isFinished] at hfin

end

theorem request_local (prof : Profile) (p : RequestParser) : Local (RequestParser.parse (R := AR) prof p) :=
  fun _ _ _ _ h => ((message_local prof parseRequestLine false 5 p).bind _ _) _ _ _ _ h

theorem response_local (prof : Profile) (p : ResponseParser) : Local (ResponseParser.parse (R := AR) prof p) :=
  fun _ _ _ _ h => ((message_local prof parseStatusLine true 5 p).bind _ _) _ _ _ _ h

end Verif
